import Verif.Schema.Meta
import Verif.Schema.Limits
/-!
# Specification: well-formed schemas

`Form` says what a schema has to look like, keyword by keyword, as the JSON schema standard (draft 4) does; `Proper n`
are the schemas nested at most `n` deep that look like this at every level.  `Unchecked` lists what the schema of
schemas does not look at.  `Understood` is what the validator needs to work with a schema.
-/

namespace Verif.Schema
open Verif

/-- A text. -/
def IsText (v : Val) : Prop := ∃ t, v = .str t
/-- A boolean. -/
def IsFlag (v : Val) : Prop := ∃ b, v = .bool b
/-- A text that is a regular expression. -/
def IsRegex (E : Env) (v : Val) : Prop := ∃ t g, v = .str t ∧ E.regex (t.takeWhile (· ≠ 0)) = some g
/-- A number above 0. -/
def IsPositive (v : Val) : Prop := (∃ n, value v = some n ∧ 0 < n) ∨ ∃ b, v = .flt b ∧ LD.ofDouble b = .inf false
/-- A whole number from 0.  NaN and infinity count as whole (`nan_integer_false`). -/
def IsSize (v : Val) : Prop :=
  (∃ n, value v = some n ∧ 0 ≤ n ∧ (2 ^ 1074 : Int) ∣ n) ∨ ∃ b, v = .flt b ∧ (LD.ofDouble b = .nan ∨ LD.ofDouble b = .inf false)
/-- One of the names of types. -/
def IsTypeName (v : Val) : Prop :=
  ∃ w, v = .str w ∧ w ∈ [wArray, wBoolean, wInteger, wNull, wNumber, wObject, wString]
/-- No two elements are equal. -/
def Distinct (E : Env) (xs : List Val) : Prop :=
  ∀ (i j : Nat) x y, i < j → xs[i]? = some x → xs[j]? = some y → veq E.p x y = false
/-- A list of such things that is not empty (its size as an `unsigned` is not 0). -/
def ListOf (P : Val → Prop) (v : Val) : Prop :=
  ∃ xs, v = .list xs ∧ xs.length % 2 ^ 32 ≠ 0 ∧ ∀ x ∈ xs, P x
/-- Likewise, without equal elements. -/
def SetOf (E : Env) (P : Val → Prop) (v : Val) : Prop :=
  ∃ xs, v = .list xs ∧ xs.length % 2 ^ 32 ≠ 0 ∧ (∀ x ∈ xs, P x) ∧ Distinct E xs
/-- A map of such things. -/
def MapOf (P : Val → Prop) (v : Val) : Prop := ∃ m, v = .map m ∧ ∀ k x, (k, x) ∈ m → P x

/-- What the values of the keywords have to be, `S` being the schemas. -/
def forms (E : Env) (S : Val → Prop) : List (Bytes × (Val → Prop)) :=
  [(kSchema, IsText),
   (kAdditionalItems, fun v => IsFlag v ∨ S v),
   (kAdditionalProperties, fun v => IsFlag v ∨ S v),
   (kAllOf, ListOf S),
   (kAnyOf, ListOf S),
   (kDefault, fun _ => True),
   (kDefinitions, MapOf S),
   (kDependencies, MapOf fun v => S v ∨ SetOf E IsText v),
   (kDescription, IsText),
   (kEnum, SetOf E fun _ => True),
   (kExclusiveMaximum, IsFlag),
   (kExclusiveMinimum, IsFlag),
   (kId, IsText),
   (kItems, fun v => S v ∨ ListOf S v),
   (kMaxItems, IsSize),
   (kMaxLength, IsSize),
   (kMaxProperties, IsSize),
   (kMaximum, fun v => isNumber v = true),
   (kMinItems, IsSize),
   (kMinLength, IsSize),
   (kMinProperties, IsSize),
   (kMinimum, fun v => isNumber v = true),
   (kMultipleOf, IsPositive),
   (kNot, S),
   (kOneOf, ListOf S),
   (kPattern, IsRegex E),
   (kPatternProperties, MapOf S),
   (kProperties, MapOf S),
   (kRequired, SetOf E IsText),
   (kTitle, IsText),
   (kType, fun v => IsTypeName v ∨ SetOf E IsTypeName v),
   (kUniqueItems, IsFlag)]

/-- The entries of a map are those of a schema. -/
structure Form (E : Env) (S : Val → Prop) (m : List (Bytes × Val)) : Prop where
  keys : ∀ k P, (k, P) ∈ forms E S → ∀ v, (k, v) ∈ m → P v
  exclusiveMaximum : (AMap.get m kExclusiveMaximum).isSome = true → (AMap.get m kMaximum).isSome = true
  exclusiveMinimum : (AMap.get m kExclusiveMinimum).isSome = true → (AMap.get m kMinimum).isSome = true

/-- A schema nested at most `n` deep. -/
def Proper (E : Env) : Nat → Val → Prop
  | 0, _ => False
  | n + 1, v => ∃ m, v = .map m ∧ Form E (Proper E n) m

/-- The second is a schema within the first. -/
inductive Part : Val → Val → Prop
  | self {s} : Part s s
  | one {m k s t} : k ∈ [kNot, kItems, kAdditionalItems, kAdditionalProperties] → has m k s → Part s t → Part (.map m) t
  | list {m k ss s t} : k ∈ [kAllOf, kAnyOf, kOneOf, kItems] → has m k (.list ss) → s ∈ ss → Part s t → Part (.map m) t
  | map {m k ps q s t} : k ∈ [kProperties, kPatternProperties, kDependencies] → has m k (.map ps) → (q, s) ∈ ps → Part s t →
      Part (.map m) t

/-- What the schema of schemas does not check: references, `divisibleBy` (a keyword of an older draft), names of
`patternProperties`, limits of sizes beyond 64 bits, and the expressions behind the formats. -/
structure Checked (E : Env) (m : List (Bytes × Val)) : Prop where
  ref : ∀ r, ¬ has m kRef (.str r)
  divisibleBy : ∀ q, has m kDivisibleBy q → IsPositive q
  patterns : ∀ ps q s, has m kPatternProperties (.map ps) → (q, s) ∈ ps → ∃ g, E.regex (q.takeWhile (· ≠ 0)) = some g
  sizes : ∀ k l, k ∈ [kMinItems, kMaxItems, kMinLength, kMaxLength, kMinProperties, kMaxProperties] → has m k l →
    ∃ n, value l = some n ∧ n < 2 ^ 64 * 2 ^ 1074
  formats : ∀ w re, (w, re) ∈ [(wDateTime, reDateTime), (wDate, reDate), (wTime, reTime)] →
    has m kFormat (.str w) → ∃ g, E.regex re = some g

/-- What the validator needs of the entries of a schema, `S` being the schemas it can work with. -/
structure Understood (E : Env) (S : Val → Prop) (m : List (Bytes × Val)) : Prop where
  ref : ∀ r, has m kRef (.str r) → ∃ t, E.loader r = .ok t ∧ S t
  type : ∀ t, has m kType t → IsTypeName t ∨ ∃ ws, t = .list ws ∧ ∀ w ∈ ws, IsTypeName w
  enum : ∀ v, has m kEnum v → ∃ vs, v = .list vs
  limits : ∀ k l, k ∈ [kMinimum, kMaximum] → has m k l → isNumber l = true
  exclusive : ∀ k x, k ∈ [kExclusiveMinimum, kExclusiveMaximum] → has m k x → IsFlag x
  multipleOf : ∀ q, divisor m q → IsPositive q
  sizes : ∀ k l, k ∈ [kMinItems, kMaxItems, kMinLength, kMaxLength, kMinProperties, kMaxProperties] → has m k l →
    isNumber l = true ∧ ∃ u, asUnsignedNum l = .ok u
  pattern : ∀ p, has m kPattern p → IsRegex E p
  formats : ∀ w re, (w, re) ∈ [(wDateTime, reDateTime), (wDate, reDate), (wTime, reTime)] →
    has m kFormat (.str w) → ∃ g, E.regex re = some g
  unique : ∀ u, has m kUniqueItems u → IsFlag u
  items : ∀ s, has m kItems s → (S s ∧ s.ty ≠ .list) ∨ ∃ ss, s = .list ss ∧ ∀ t ∈ ss, S t
  additional : ∀ k a, k ∈ [kAdditionalItems, kAdditionalProperties] → has m k a → IsFlag a ∨ S a
  required : ∀ r, has m kRequired r → ∃ ks, r = .list ks ∧ ∀ k ∈ ks, IsText k
  properties : ∀ v, has m kProperties v → MapOf S v
  patterns : ∀ v, has m kPatternProperties v → ∃ ps, v = .map ps ∧
    ∀ k s, (k, s) ∈ ps → S s ∧ ∃ g, E.regex (k.takeWhile (· ≠ 0)) = some g
  dependencies : ∀ v, has m kDependencies v → ∃ ds, v = .map ds ∧ ∀ k d, (k, d) ∈ ds →
    (S d ∧ d.ty = .map) ∨ ∃ ks, d = .list ks ∧ ∀ k ∈ ks, IsText k
  combinations : ∀ k v, k ∈ [kAllOf, kAnyOf, kOneOf] → has m k v → ∃ ss, v = .list ss ∧ ∀ s ∈ ss, S s
  not : ∀ s, has m kNot s → S s

end Verif.Schema
