import Verif.Schema.Model
/-!
# Specification of validation

What it means for a value to satisfy a schema, keyword by keyword, given the verdicts of
subschemas.  Nothing here mentions the order of evaluation, contexts or nesting depth.
-/

namespace Verif.Schema

/-- The three kinds of outcome: no error reported, an error reported, anything else (an
exception other than the validator's own, undefined behaviour, no result). -/
inductive Vd where
  | accept | reject | abnormal
  deriving DecidableEq, Repr

/-- The verdict of a run: `SchemaResult::Error()` (include/Variant/Schema.h 81) is true when
validation errors or schema errors were recorded. -/
def verdict : M → Vd
  | some (.go false) => .accept
  | some (.go true) => .reject
  | some (.stop _ _) => .reject
  | _ => .abnormal

/-- Validating data against a schema that stands on its own. -/
def alone (E : Env) (s d : Val) : Vd := verdict (validate E (recursionLimit + 1) 0 s d)

/-- The keyword's value, if the schema has it, is `v`. -/
abbrev has (m : List (Bytes × Val)) (k : Bytes) (v : Val) : Prop := AMap.get m k = some v

/-- The schema has no such keyword. -/
abbrev lacks (m : List (Bytes × Val)) (k : Bytes) : Prop := AMap.get m k = none

/-- Sizes of at least / at most what a limit keyword says; the limit must be a number. -/
def AtLeast (m : List (Bytes × Val)) (k : Bytes) (n : Nat) : Prop :=
  ∀ l, has m k l → isNumber l = true ∧ ∃ u, asUnsignedNum l = .ok u ∧ u.toNat ≤ n
def AtMost (m : List (Bytes × Val)) (k : Bytes) (n : Nat) : Prop :=
  ∀ l, has m k l → isNumber l = true ∧ ∃ u, asUnsignedNum l = .ok u ∧ n ≤ u.toNat

/-- `true` / absent allow everything, `false` allows nothing, otherwise a schema. -/
def ExtraOk (sub : Val → Val → Vd) (m : List (Bytes × Val)) (k : Bytes) (x : Val) : Prop :=
  lacks m k ∨ has m k (.bool true) ∨ ∃ a, has m k a ∧ a.ty ≠ .bool ∧ sub a x = .accept

structure NumberOk (E : Env) (m : List (Bytes × Val)) (d : Val) : Prop where
  minimum : ∀ l, has m kMinimum l → isNumber l = true ∧ ¬ cmp E.p d l < 0 ∧
    ∀ x, has m kExclusiveMinimum x → ∃ b, asBool x = .ok b ∧ (b = true → cmp E.p d l ≠ 0)
  maximum : ∀ l, has m kMaximum l → isNumber l = true ∧ ¬ cmp E.p d l > 0 ∧
    ∀ x, has m kExclusiveMaximum x → ∃ b, asBool x = .ok b ∧ (b = true → cmp E.p d l ≠ 0)
  multipleOf : ∀ q, (has m kMultipleOf q ∨ (lacks m kMultipleOf ∧ has m kDivisibleBy q)) →
    isNumber q = true ∧ ¬ cmp E.p q (.int 0) < 0 ∧
    (d.ty ≠ .flt → q.ty ≠ .flt → ∃ r, arith (fun _ v _ => v) .rem d q = .ok r ∧ cmp E.p r (.int 0) = 0) ∧
    (d.ty = .flt ∨ q.ty = .flt → ∀ a b, numLD E.p d = some a → numLD E.p q = some b →
      LD.lt (tolerance E.p) (ldMod a b) = false ∨ LD.lt (tolerance E.p) (absDiff E.p (ldMod a b) b) = false)

structure StringOk (E : Env) (m : List (Bytes × Val)) (s : Bytes) : Prop where
  minLength : AtLeast m kMinLength (size (.str s))
  maxLength : AtMost m kMaxLength (size (.str s))
  pattern : ∀ p, has m kPattern p → ∃ t g, p = .str t ∧
    E.regex (t.takeWhile (· ≠ 0)) = some g ∧ g (s.takeWhile (· ≠ 0)) = true
  formatRegex : has m kFormat (.str wRegex) → (E.regex (s.takeWhile (· ≠ 0))).isSome = true
  formatOther : ∀ w re, (w, re) ∈ [(wDateTime, reDateTime), (wDate, reDate), (wTime, reTime)] →
    has m kFormat (.str w) → ∃ g, E.regex re = some g ∧ g (s.takeWhile (· ≠ 0)) = true

structure ArrayOk (E : Env) (sub : Val → Val → Vd) (m : List (Bytes × Val)) (xs : List Val) : Prop where
  minItems : AtLeast m kMinItems (size (.list xs))
  maxItems : AtMost m kMaxItems (size (.list xs))
  unique : ∀ u, has m kUniqueItems u → u = .bool false ∨
    (u = .bool true ∧ ∀ (i j : Nat) x y, i < j → xs[i]? = some x → xs[j]? = some y → veq E.p x y = false)
  itemsEach : ∀ s, has m kItems s → s.ty ≠ .list → ∀ x ∈ xs, sub s x = .accept
  itemsList : ∀ ss, has m kItems (.list ss) → ∀ (i : Nat) x, xs[i]? = some x →
    (∀ s, ss[i]? = some s → sub s x = .accept) ∧ (ss[i]? = none → ExtraOk sub m kAdditionalItems x)

/-- A property's name matches a pattern. -/
def Matches (E : Env) (pat key : Bytes) : Prop :=
  ∃ g, E.regex (pat.takeWhile (· ≠ 0)) = some g ∧ g (key.takeWhile (· ≠ 0)) = true

structure ObjectOk (E : Env) (sub : Val → Val → Vd) (m dm : List (Bytes × Val)) : Prop where
  minProperties : AtLeast m kMinProperties (size (.map dm))
  maxProperties : AtMost m kMaxProperties (size (.map dm))
  required : ∀ r, has m kRequired r → ∃ ks, r = .list ks ∧
    ∀ k ∈ ks, ∃ t x, k = .str t ∧ AMap.get dm t = some x
  propertiesForm : ∀ v, has m kProperties v → v.ty = .map
  patternsForm : ∀ v, has m kPatternProperties v → ∃ ps, v = .map ps ∧
    ∀ k s, (k, s) ∈ ps → ∃ g, E.regex (k.takeWhile (· ≠ 0)) = some g
  properties : ∀ k x, (k, x) ∈ dm → ∀ ps s, has m kProperties (.map ps) → AMap.get ps k = some s →
    sub s x = .accept
  patterns : ∀ k x, (k, x) ∈ dm → ∀ ps q s, has m kPatternProperties (.map ps) → (q, s) ∈ ps →
    Matches E q k → sub s x = .accept
  additional : ∀ k x, (k, x) ∈ dm →
    (∀ ps, has m kProperties (.map ps) → AMap.get ps k = none) →
    (∀ ps q s, has m kPatternProperties (.map ps) → (q, s) ∈ ps → ¬ Matches E q k) →
    ExtraOk sub m kAdditionalProperties x
  dependencies : ∀ v, has m kDependencies v → ∃ deps, v = .map deps ∧
    ∀ k dep, (k, dep) ∈ deps → (AMap.get dm k).isSome = true →
      (∃ t, dep = .str t ∧ (AMap.get dm t).isSome = true) ∨
      (∃ ks, dep = .list ks ∧ ∀ k ∈ ks, ∃ t, Build.asString E.ft k = .ok t ∧ (AMap.get dm t).isSome = true) ∨
      (∃ dm', dep = .map dm' ∧ sub dep (.map dm) = .accept)

/-- The words of a `type` keyword: the first that fits, none before it unknown. -/
def TypeOk (E : Env) (t d : Val) : Prop :=
  ∃ pre w post, (if t.ty = .list then t else .list [t]) = .list (pre ++ w :: post) ∧
    (∀ x ∈ pre, hasType E d x = some false) ∧ hasType E d w = some true

structure CombinationsOk (sub : Val → Val → Vd) (m : List (Bytes × Val)) (d : Val) : Prop where
  allOf : ∀ v, has m kAllOf v → ∃ ss, v = .list ss ∧ ∀ s ∈ ss, sub s d = .accept
  anyOf : ∀ v, has m kAnyOf v → ∃ pre s post, v = .list (pre ++ s :: post) ∧
    (∀ x ∈ pre, sub x d = .reject) ∧ sub s d = .accept
  oneOf : ∀ v, has m kOneOf v → ∃ pre s post, v = .list (pre ++ s :: post) ∧
    (∀ x ∈ pre ++ post, sub x d = .reject) ∧ sub s d = .accept
  not : ∀ s, has m kNot s → sub s d = .reject

/-- The value satisfies every keyword of the schema. -/
structure Valid (E : Env) (sub : Val → Val → Vd) (m : List (Bytes × Val)) (d : Val) : Prop where
  ref : ∀ r, has m kRef (.str r) → ∃ t, E.loader r = .ok t ∧ sub t d = .accept
  type : ∀ t, has m kType t → TypeOk E t d
  enum : ∀ v, has m kEnum v → ∃ vs, v = .list vs ∧ ∃ x ∈ vs, veq E.p x d = true
  number : isNumber d = true → NumberOk E m d
  string : ∀ s, d = .str s → StringOk E m s
  array : ∀ xs, d = .list xs → ArrayOk E sub m xs
  object : ∀ dm, d = .map dm → ObjectOk E sub m dm
  combinations : CombinationsOk sub m d

/-- One validation step: validating the first pair may require validating the second. -/
inductive Step (E : Env) : Val × Val → Val × Val → Prop
  | ref {m d r t} : has m kRef (.str r) → E.loader r = .ok t → Step E (.map m, d) (t, d)
  | allOf {m d ss s} : has m kAllOf (.list ss) → s ∈ ss → Step E (.map m, d) (s, d)
  | anyOf {m d ss s} : has m kAnyOf (.list ss) → s ∈ ss → Step E (.map m, d) (s, d)
  | oneOf {m d ss s} : has m kOneOf (.list ss) → s ∈ ss → Step E (.map m, d) (s, d)
  | not {m d s} : has m kNot s → Step E (.map m, d) (s, d)
  | items {m xs s x} : has m kItems s → x ∈ xs → Step E (.map m, .list xs) (s, x)
  | itemsAt {m xs ss s x} {i : Nat} : has m kItems (.list ss) → ss[i]? = some s → xs[i]? = some x →
      Step E (.map m, .list xs) (s, x)
  | additionalItems {m xs s x} : has m kAdditionalItems s → x ∈ xs → Step E (.map m, .list xs) (s, x)
  | properties {m dm ps s k x} : has m kProperties (.map ps) → AMap.get ps k = some s → (k, x) ∈ dm →
      Step E (.map m, .map dm) (s, x)
  | patterns {m dm ps q s k x} : has m kPatternProperties (.map ps) → (q, s) ∈ ps → (k, x) ∈ dm →
      Step E (.map m, .map dm) (s, x)
  | additionalProperties {m dm s k x} : has m kAdditionalProperties s → (k, x) ∈ dm →
      Step E (.map m, .map dm) (s, x)
  | dependencies {m dm deps k s} : has m kDependencies (.map deps) → (k, s) ∈ deps →
      Step E (.map m, .map dm) (s, .map dm)

/-- No chain of validation steps from the pair is `n` steps long. -/
def Within (E : Env) : Nat → Val × Val → Prop
  | 0, _ => False
  | n + 1, a => ∀ b, Step E a b → Within E n b

end Verif.Schema
