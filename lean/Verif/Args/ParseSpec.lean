import Verif.Args.Parse
import Verif.Schema.Limits
/-!
# What a user of a parsed command line relies on

These definitions do not mention the functions that parse.
-/

namespace Verif.Args
open Verif JsonDrv Schema

/-- A value as it is in the result: not null. -/
def HasValue (v : Val) (path : VPath) (x : Val) : Prop := getPath? v path = some x ∧ x ≠ .null

/-- The value lies within the requirements set on an option.  Lengths are compared with the limits as numbers;
`value` is the value of a finite number in units of 2^-1074; `cmp` compares as `operator<` does, infinities
included. -/
structure Meets (w : World) (c : Config) (v : Val) : Prop where
  minLength : ∀ s l n, v = .str s → optGet c kMinLength = some l → value l = some n → n ≤ ((s.length % 2 ^ 32 : Nat) : Int) * 2 ^ 1074
  maxLength : ∀ s l n, v = .str s → optGet c kMaxLength = some l → value l = some n → ((s.length % 2 ^ 32 : Nat) : Int) * 2 ^ 1074 ≤ n
  pattern : ∀ s x pat, v = .str s → optGet c kPattern = some x → Build.asString w.fo.fltText x = .ok pat →
    ∃ g, w.regex (pat.takeWhile (· ≠ 0)) = some g ∧ g (s.takeWhile (· ≠ 0)) = true
  minimum : ∀ a l b, value v = some a → optGet c kMinimum = some l → value l = some b → b ≤ a
  maximum : ∀ a l b, value v = some a → optGet c kMaximum = some l → value l = some b → a ≤ b
  notBelow : ∀ l, isNumber v = true → optGet c kMinimum = some l → ¬ cmp w.p v l < 0
  notAbove : ∀ l, isNumber v = true → optGet c kMaximum = some l → ¬ cmp w.p v l > 0
  enum : ∀ x, optGet c kEnum = some x → ∃ xs, x = .list xs ∧ ∃ y ∈ xs, veq w.p v y = true

/-- The values an entry can have after it was mentioned, by its action. -/
def Allowed (w : World) (c : Config) (r : Val) : Prop :=
  match c.action with
  | .store => Meets w c r
  | .append => ∃ xs, r = .list xs ∧ ∀ x ∈ xs, Meets w c x
  | .storeConst => optGet c kConst = some r
  | .storeTrue => ∃ b, r = .bool b
  | .storeFalse => ∃ b, r = .bool b
  | .count => ∃ n, r = .uint n
  | _ => False

/-- The value is the entry's default: as it is, or as the only element of the list of an appending entry. -/
def IsDefault (c : Config) (r : Val) : Prop :=
  ∃ d, optGet c kDefault = some d ∧
    match c.action with
    | .store => r = d
    | .storeConst => r = d
    | .storeTrue => r = d
    | .storeFalse => r = d
    | .append => r = .list [d]
    | _ => False

/-- No two entries of a result are stored one inside the other. -/
def PathsApart (s : St) : Prop :=
  ∀ a b o o', s.entry a = some o → s.entry b = some o' → a ≠ b → hasResult o.cfg.action = true → hasResult o'.cfg.action = true →
    Diverge o.path o'.path

/-! ## Order -/

/-- A relation along a list. -/
inductive Chain {α β : Type} (R : α → β → α → Prop) : α → List β → α → Prop
  | nil (a : α) : Chain R a [] a
  | cons {a b c : α} {x : β} {xs : List β} : R a x b → Chain R b xs c → Chain R a (x :: xs) c

/-- What one mention of an entry, with its word if it takes one, makes of the entry's value: the word's value
replaces it or goes at the end of the list, a constant replaces it, or it is counted. -/
inductive Says (w : World) (c : Config) : Val → Option Text → Val → Prop
  | store {prev : Val} {t : Text} {x : Val} : c.action = .store → parseArg w c (some t) = .ok x → Meets w c x → Says w c prev (some t) x
  | first {t : Text} {x : Val} : c.action = .append → parseArg w c (some t) = .ok x → Meets w c x →
      Says w c .null (some t) (.list [x])
  | append {xs : List Val} {t : Text} {x : Val} : c.action = .append → parseArg w c (some t) = .ok x → Meets w c x →
      Says w c (.list xs) (some t) (.list (xs ++ [x]))
  | const {prev x : Val} : c.action = .storeConst → optGet c kConst = some x → Says w c prev none x
  | yes {prev : Val} : c.action = .storeTrue → Says w c prev none (.bool true)
  | no {prev : Val} : c.action = .storeFalse → Says w c prev none (.bool false)
  | count {n : UInt64} : c.action = .count → Says w c (.uint n) none (.uint (n + 1))

/-- The value an entry starts with. -/
def start (c : Config) : Val := if c.action = .count then .uint 0 else .null

/-- The word from the environment. -/
def envWords (w : World) (c : Config) : List (Option Text) :=
  match optGet c kEnv with
  | none => []
  | some e => match Build.asString w.fo.fltText e with
    | .ok name => match w.getenv (name.takeWhile (· ≠ 0)) with
      | none => []
      | some t => [some t]
    | _ => []

/-- The words given with an option on the command line. -/
def optWords (k : Int32) (es : List Event) : List (Option Text) := (es.filter (·.id = k)).map (·.arg)

/-- The largest number of words of an argument, 0 if there is no limit. -/
def limit (w : World) (s : St) (id : Int32) : Nat :=
  match s.entry id with
  | none => 0
  | some o => match setting w o.cfg kMaxArgs with
    | .ok n => n
    | _ => 0

/-- The words divided among the arguments, in order: each takes as many as it can. -/
def shares (limit : Int32 → Nat) : List Int32 → List Text → List (Int32 × List Text)
  | [], _ => []
  | id :: ids, rest =>
    let n := if limit id = 0 then rest.length else limit id
    (id, rest.take n) :: shares limit ids (rest.drop n)

/-- The words of one argument. -/
def argWords (limit : Int32 → Nat) (k : Int32) (ids : List Int32) (rest : List Text) : List (Option Text) :=
  (((shares limit ids rest).filter (·.1 = k)).flatMap (·.2)).map some

/-- No entry reads a configuration file. -/
def NoConfig (s : St) : Prop :=
  ∀ k o, s.entry k = some o → o.cfg.action ≠ .config ∧ o.cfg.action ≠ .configJson ∧ o.cfg.action ≠ .configYaml ∧ o.cfg.action ≠ .configPlist

end Verif.Args
