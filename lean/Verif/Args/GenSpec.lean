import Verif.Args.Gen
import Verif.Args.ParseSpec
/-!
# What the schema of a parser is for

A program checks results of `Parse`, or settings from elsewhere, against the schema its parser generates.  The
definitions here say what is asked of the way the parser was set up; they do not mention the functions that
generate the schema.
-/

namespace Verif.Args
open Verif JsonDrv Schema

/-- The value has the type of the entry; an entry without type takes any value.  Unsigned numbers are integers. -/
def OfType (ty : Ty) (v : Val) : Prop :=
  match ty with
  | .null => True
  | .bool => v.ty = .bool
  | .int => v.ty = .int ∨ v.ty = .uint
  | .uint => v.ty = .int ∨ v.ty = .uint
  | .flt => v.ty = .int ∨ v.ty = .uint ∨ v.ty = .flt
  | .str => v.ty = .str
  | _ => False

/-- The value is one the entry could have been given: of its type and within its requirements. -/
def Fits (w : World) (c : Config) (r : Val) : Prop :=
  match c.action with
  | .store => OfType c.ty r ∧ Meets w c r
  | .append => ∃ xs, r = .list xs ∧ ∀ x ∈ xs, OfType c.ty x ∧ Meets w c x
  | .storeConst => optGet c kConst = some r
  | .storeTrue => r.ty = .bool
  | .storeFalse => r.ty = .bool
  | .count => r.ty = .uint
  | _ => False

/-- A count as the setters of limits store it. -/
def IsCount (l : Val) : Prop := (∃ n : UInt64, l = .uint n) ∨ ∃ i : Int64, 0 ≤ i.toInt ∧ l = .int i

/-- The settings of an entry are as the setters of `ArgParseOption` make them (src/ArgParse.cc 456-589). -/
structure Settings (c : Config) : Prop where
  ty : c.ty ∈ [Ty.null, .bool, .int, .uint, .flt, .str]
  minimum : ∀ l, optGet c kMinimum = some l → isNumber l = true
  maximum : ∀ l, optGet c kMaximum = some l → isNumber l = true
  minLength : ∀ l, optGet c kMinLength = some l → IsCount l
  maxLength : ∀ l, optGet c kMaxLength = some l → IsCount l
  minArgs : ∀ l, optGet c kMinArgs = some l → IsCount l
  maxArgs : ∀ l, optGet c kMaxArgs = some l → IsCount l
  pattern : ∀ x, optGet c kPattern = some x → x.ty = .str
  /-- the choices hold no blob of several buffers, which `Copy` joins -/
  choices : ∀ x, optGet c kEnum = some x → deepCopy x = x
  const : c.action = .storeConst → ∃ x, optGet c kConst = some x

/-- How the parser is set up: every entry has a path of its own made of keys, settings as the setters make them,
and a default, if any, that it could have been given; groups are made of registered entries. -/
structure Plain (w : World) (s : St) : Prop where
  apart : ∀ a b o o', s.entry a = some o → s.entry b = some o' → a ≠ b → Diverge o.path o'.path
  keys : ∀ a o, s.entry a = some o → ∀ e ∈ o.path, ∃ k, e = .key k
  short : ∀ a o, s.entry a = some o → o.path.length ≤ 95
  settings : ∀ a o, s.entry a = some o → Settings o.cfg
  defaults : ∀ a o r, s.entry a = some o → IsDefault o.cfg r → r ≠ .null → Fits w o.cfg r
  members : ∀ n g, (n, g) ∈ s.groups → g.members.Nodup ∧ ∀ a ∈ g.members, ∃ o, s.entry a = some o

/-- The validator works on the same machine and with the same regular expressions as the parser. -/
def SameWorld (w : World) (E : Env) : Prop := E.p = w.p ∧ E.regex = w.regex

/-- A list is within the limits for the number of words; `size` is what `Size` returns, and a largest number of 0 is
no limit. -/
def Counted (w : World) (c : Config) (xs : List Val) : Prop :=
  (∀ l b, optGet c kMinArgs = some l → value l = some b → b ≤ (size (.list xs) : Int) * 2 ^ 1074) ∧
  (∀ l b, optGet c kMaxArgs = some l → cmp w.p l (.int 0) > 0 → value l = some b → (size (.list xs) : Int) * 2 ^ 1074 ≤ b)

/-- Above the entries the maps of the value are sorted, as maps in memory are. -/
def SortedAbove (s : St) (v : Val) : Prop :=
  ∀ a o q m, s.entry a = some o → q <+: o.path → q ≠ o.path → getPath? v q = some (.map m) → AMap.Sorted m

/-- The value has the type a schema names for the entry.  A float that is a whole number is an integer. -/
def TypeFits (ty : Ty) (v : Val) : Prop :=
  OfType ty v ∨ ((ty = .int ∨ ty = .uint) ∧ v.ty = .flt ∧ ∀ n, value v = some n → (2 ^ 1074 : Int) ∣ n)

/-- The value is one the schema allows for the entry. -/
def Suits (w : World) (c : Config) (x : Val) : Prop :=
  match c.action with
  | .store => TypeFits c.ty x ∧ Meets w c x
  | .append => ∀ xs, x = .list xs → (∀ y ∈ xs, TypeFits c.ty y ∧ Meets w c y) ∧ Counted w c xs
  | .storeConst => ∃ k, optGet c kConst = some k ∧ veq w.p k x = true
  | .storeTrue => x.ty = .bool
  | .storeFalse => x.ty = .bool
  | .count => TypeFits .int x ∧ ¬ cmp w.p x (.int 0) < 0
  | _ => True

/-- The document is a map with a map at each step of the way to an entry, has each required entry, gives each entry
it has a value that suits it, and has at most one of the members of a mutually exclusive group and one of them if the
group is required. -/
structure Conforms (w : World) (s : St) (v : Val) : Prop where
  maps : ∀ a o q d, s.entry a = some o → q <+: o.path → q ≠ o.path → getPath? v q = some d → d.ty = .map
  suits : ∀ a o x, s.entry a = some o → getPath? v o.path = some x → Suits w o.cfg x
  required : ∀ a o, s.entry a = some o → o.cfg.required = true → ∃ x, getPath? v o.path = some x
  exclusive : ∀ n g a b oa ob x y, (n, g) ∈ s.groups → g.exclusive = true → a ∈ g.members → b ∈ g.members → a ≠ b →
    s.entry a = some oa → s.entry b = some ob → ¬ (getPath? v oa.path = some x ∧ getPath? v ob.path = some y)
  one : ∀ n g, (n, g) ∈ s.groups → g.exclusive = true → g.required = true →
    ∃ a o x, a ∈ g.members ∧ s.entry a = some o ∧ getPath? v o.path = some x

end Verif.Args
