import Verif.Schema.Report
import Verif.Schema.Spec
/-!
# Specification: where an error is

Which values a validation looks at and the two paths to them (`Move`, `Reach`), what is wrong with a value (`Fault`) and
what is wrong with a schema (`Defect`).  Nothing here mentions the order of evaluation or contexts.
-/

namespace Verif.Schema
open Verif

/-- The verdict on data when the schema is reached after `n` steps. -/
def judge (E : Env) (n : Nat) (s d : Val) : Vd := verdict (validate E (recursionLimit + 1 - n) n s d)

/-- Neither `properties` nor `patternProperties` says anything about the key. -/
def Uncovered (E : Env) (m : List (Bytes × Val)) (k : Bytes) : Prop :=
  (∀ ps, has m kProperties (.map ps) → lacks ps k) ∧
  (∀ ps q s, has m kPatternProperties (.map ps) → (q, s) ∈ ps → ¬ Matches E q k)

/-- `Move E s d sp dp t x`: to check `d` against `s`, `x` is checked against `t`; `t` is found in `s` along `sp`, and `x` in `d`
along `dp`.  Only a reference has no path: its target is elsewhere. -/
inductive Move (E : Env) : Val → Val → VPath → VPath → Val → Val → Prop
  | ref {m d r t} : has m kRef (.str r) → E.loader r = .ok t → Move E (.map m) d [] [] t d
  | oneOfMany {m d k ss s} {i : Nat} : k ∈ [kAllOf, kAnyOf, kOneOf] → has m k (.list ss) → ss[i]? = some s →
      Move E (.map m) d [.key k, idx i] [] s d
  | not {m d s} : has m kNot s → Move E (.map m) d [.key kNot] [] s d
  | items {m xs s x} {i : Nat} : has m kItems s → s.ty ≠ .list → xs[i]? = some x →
      Move E (.map m) (.list xs) [.key kItems] [idx i] s x
  | itemsAt {m xs ss s x} {i : Nat} : has m kItems (.list ss) → ss[i]? = some s → xs[i]? = some x →
      Move E (.map m) (.list xs) [.key kItems, idx i] [idx i] s x
  | additionalItems {m xs ss s x} {i : Nat} : has m kItems (.list ss) → ss.length ≤ i → has m kAdditionalItems s →
      xs[i]? = some x → Move E (.map m) (.list xs) [.key kAdditionalItems] [idx i] s x
  | properties {m dm ps s k x} : has m kProperties (.map ps) → has ps k s → (k, x) ∈ dm →
      Move E (.map m) (.map dm) [.key kProperties, .key k] [.key k] s x
  | patterns {m dm ps q s k x} : has m kPatternProperties (.map ps) → (q, s) ∈ ps → Matches E q k → (k, x) ∈ dm →
      Move E (.map m) (.map dm) [.key kPatternProperties, .key q] [.key k] s x
  | additionalProperties {m dm s k x} : Uncovered E m k → has m kAdditionalProperties s → (k, x) ∈ dm →
      Move E (.map m) (.map dm) [.key kAdditionalProperties] [.key k] s x
  | dependencies {m dm deps k s} : has m kDependencies (.map deps) → (k, s) ∈ deps → (AMap.get dm k).isSome = true →
      Move E (.map m) (.map dm) [.key kDependencies, .key k] [] s (.map dm)

/-- `Reach E S X n sp s dp d`: checking `X` against `S` comes, after `n` steps, to checking `d` against `s`. -/
inductive Reach (E : Env) (S X : Val) : Nat → VPath → Val → VPath → Val → Prop
  | start : Reach E S X 0 [] S [] X
  | step {n sp s dp d sq t dq x} : Reach E S X n sp s dp d → Move E s d sq dq t x → Reach E S X (n + 1) (sp ++ sq) t (dp ++ dq) x

/-- The names of a `type` keyword. -/
def namesIn : Val → List Val
  | .list ws => ws
  | w => [w]

/-- The seven names of types. -/
def knownTypes : List Bytes := [wArray, wBoolean, wInteger, wNull, wNumber, wObject, wString]

/-- A number is no multiple of another: with integers the remainder is not zero, with floating point numbers it is not within
the tolerance of zero or of the divisor. -/
def NoMultiple (E : Env) (d q : Val) : Prop :=
  (d.ty ≠ .flt ∧ q.ty ≠ .flt ∧ ∃ r, arith (fun _ v _ => v) .rem d q = .ok r ∧ cmp E.p r (.int 0) ≠ 0) ∨
  ((d.ty = .flt ∨ q.ty = .flt) ∧ ∃ a b, numLD E.p d = some a ∧ numLD E.p q = some b ∧
    LD.lt (tolerance E.p) (ldMod a b) = true ∧ LD.lt (tolerance E.p) (absDiff E.p (ldMod a b) b) = true)

/-- `Fault E sub m d ks ds subs`: the data `d` violates the schema `m`, in the keyword that `ks` leads to; `ds` leads to the part
that is not allowed.  `subs` are the reports of alternatives, `sub` the verdicts of schemas inside. -/
inductive Fault (E : Env) (sub : Val → Val → Vd) (m : List (Bytes × Val)) : Val → VPath → VPath → List Report → Prop
  | type {d t} : has m kType t → (∀ w ∈ namesIn t, hasType E d w ≠ some true) → Fault E sub m d [.key kType] [] []
  | enum {d vs} : has m kEnum (.list vs) → (∀ v ∈ vs, veq E.p v d = false) → Fault E sub m d [.key kEnum] [] []
  | multipleOf {d q} : isNumber d = true → has m kMultipleOf q → NoMultiple E d q → Fault E sub m d [.key kMultipleOf] [] []
  | divisibleBy {d q} : isNumber d = true → lacks m kMultipleOf → has m kDivisibleBy q → NoMultiple E d q →
      Fault E sub m d [.key kDivisibleBy] [] []
  | minimum {d l} : isNumber d = true → has m kMinimum l → isNumber l = true → cmp E.p d l < 0 → Fault E sub m d [.key kMinimum] [] []
  | maximum {d l} : isNumber d = true → has m kMaximum l → isNumber l = true → cmp E.p d l > 0 → Fault E sub m d [.key kMaximum] [] []
  | exclusiveMinimum {d l x} : isNumber d = true → has m kMinimum l → isNumber l = true → has m kExclusiveMinimum x →
      asBool x = .ok true → cmp E.p d l = 0 → Fault E sub m d [.key kExclusiveMinimum] [] []
  | exclusiveMaximum {d l x} : isNumber d = true → has m kMaximum l → isNumber l = true → has m kExclusiveMaximum x →
      asBool x = .ok true → cmp E.p d l = 0 → Fault E sub m d [.key kExclusiveMaximum] [] []
  | tooSmall {d l u k ty} : (k, ty) ∈ [(kMinLength, Ty.str), (kMinItems, .list), (kMinProperties, .map)] → d.ty = ty →
      has m k l → asUnsignedNum l = .ok u → size d < u.toNat → Fault E sub m d [.key k] [] []
  | tooLarge {d l u k ty} : (k, ty) ∈ [(kMaxLength, Ty.str), (kMaxItems, .list), (kMaxProperties, .map)] → d.ty = ty →
      has m k l → asUnsignedNum l = .ok u → size d > u.toNat → Fault E sub m d [.key k] [] []
  | pattern {s t g} : has m kPattern (.str t) → E.regex (t.takeWhile (· ≠ 0)) = some g → g (s.takeWhile (· ≠ 0)) = false →
      Fault E sub m (.str s) [.key kPattern] [] []
  | formatRegex {s} : has m kFormat (.str wRegex) → E.regex (s.takeWhile (· ≠ 0)) = none → Fault E sub m (.str s) [.key kFormat] [] []
  | format {s w re g} : (w, re) ∈ [(wDateTime, reDateTime), (wDate, reDate), (wTime, reTime)] → has m kFormat (.str w) →
      E.regex re = some g → g (s.takeWhile (· ≠ 0)) = false → Fault E sub m (.str s) [.key kFormat] [] []
  | uniqueItems {xs x y} {i j : Nat} : has m kUniqueItems (.bool true) → i < j → xs[i]? = some x → xs[j]? = some y →
      veq E.p x y = true → Fault E sub m (.list xs) [.key kUniqueItems] [] []
  | required {dm rs k} {i : Nat} : has m kRequired (.list rs) → rs[i]? = some (.str k) → lacks dm k →
      Fault E sub m (.map dm) [.key kRequired, idx i] [] []
  | dependency {dm deps k t} : has m kDependencies (.map deps) → (k, .str t) ∈ deps → (AMap.get dm k).isSome = true → lacks dm t →
      Fault E sub m (.map dm) [.key kDependencies, .key k] [] []
  | dependencies {dm deps k rs r t} {i : Nat} : has m kDependencies (.map deps) → (k, .list rs) ∈ deps →
      (AMap.get dm k).isSome = true → rs[i]? = some r → Build.asString E.ft r = .ok t → lacks dm t →
      Fault E sub m (.map dm) [.key kDependencies, .key k, idx i] [] []
  | additionalProperties {dm k x} : has m kAdditionalProperties (.bool false) → (k, x) ∈ dm → Uncovered E m k →
      Fault E sub m (.map dm) [.key kAdditionalProperties] [.key k] []
  | additionalItems {xs ss} {i : Nat} : has m kItems (.list ss) → has m kAdditionalItems (.bool false) → ss.length ≤ i →
      i < xs.length → Fault E sub m (.list xs) [.key kAdditionalItems] [idx i] []
  | not {d s} : has m kNot s → sub s d = .accept → Fault E sub m d [.key kNot] [] []
  | noneOf {d k ss subs} : k ∈ [kAnyOf, kOneOf] → has m k (.list ss) → (∀ s ∈ ss, sub s d = .reject) → subs.length = ss.length →
      Fault E sub m d [.key k] [] subs
  | twoOf {d ss s t} {i j : Nat} : has m kOneOf (.list ss) → i < j → ss[i]? = some s → ss[j]? = some t → sub s d = .accept →
      sub t d = .accept → Fault E sub m d [.key kOneOf] [] []

/-- `Defect E m ks`: what `ks` leads to in the schema `m` is not as the keyword needs it.  For `properties` the path ends at the
schema itself. -/
inductive Defect (E : Env) (m : List (Bytes × Val)) : VPath → Prop
  | noNumber {k v} : k ∈ [kMinimum, kMaximum, kMultipleOf, kDivisibleBy, kMinLength, kMaxLength, kMinItems, kMaxItems,
      kMinProperties, kMaxProperties] → has m k v → isNumber v = false → Defect E m [.key k]
  | negative {k v} : k ∈ [kMultipleOf, kDivisibleBy] → has m k v → cmp E.p v (.int 0) < 0 → Defect E m [.key k]
  | noList {k v} : k ∈ [kAllOf, kAnyOf, kOneOf, kRequired, kEnum] → has m k v → v.ty ≠ .list → Defect E m [.key k]
  | noObject {k v} : k ∈ [kDependencies, kPatternProperties] → has m k v → v.ty ≠ .map → Defect E m [.key k]
  | properties {v} : has m kProperties v → v.ty ≠ .map → Defect E m []
  | noBool {v} : has m kUniqueItems v → v.ty ≠ .bool → Defect E m [.key kUniqueItems]
  | noString {v} : has m kPattern v → v.ty ≠ .str → Defect E m [.key kPattern]
  | pattern {t} : has m kPattern (.str t) → E.regex (t.takeWhile (· ≠ 0)) = none → Defect E m [.key kPattern]
  | patternKey {ps q s} : has m kPatternProperties (.map ps) → (q, s) ∈ ps → E.regex (q.takeWhile (· ≠ 0)) = none →
      Defect E m [.key kPatternProperties, .key q]
  | format {w re} : (w, re) ∈ [(wDateTime, reDateTime), (wDate, reDate), (wTime, reTime)] → has m kFormat (.str w) →
      E.regex re = none → Defect E m [.key kFormat]
  | requiredItem {rs r} {i : Nat} : has m kRequired (.list rs) → rs[i]? = some r → r.ty ≠ .str → Defect E m [.key kRequired, idx i]
  | dependency {deps k v} : has m kDependencies (.map deps) → (k, v) ∈ deps → v.ty ≠ .str → v.ty ≠ .list → v.ty ≠ .map →
      Defect E m [.key kDependencies, .key k]
  | typeName {t w} {i : Nat} : has m kType t → (namesIn t)[i]? = some w → (∀ n ∈ knownTypes, w ≠ .str n) →
      Defect E m [.key kType, idx i]

/-- A validation error has its place: something reached is at fault, and the error's paths are those to it. -/
def Explained (E : Env) (S X : Val) (n : Note) : Prop :=
  ∃ k sp m dp d ks ds, Reach E S X k sp (.map m) dp d ∧ Fault E (judge E (k + 1)) m d ks ds n.subs ∧
    n.schema = sp ++ ks ∧ n.data = dp ++ ds

/-- A schema error has its place: a schema reached has a defect there, or is reached only after as many steps as allowed. -/
def SchemaExplained (E : Env) (S X : Val) (p : VPath) : Prop :=
  (∃ k sp m dp d ks, Reach E S X k sp (.map m) dp d ∧ Defect E m ks ∧ p = sp ++ ks) ∨
  (∃ s dp d, Reach E S X recursionLimit p s dp d)

/-- The errors of a report and of the reports inside it. -/
inductive InReport (n : Note) : Report → Prop
  | here {r : Report} : n ∈ r.1 → InReport n r
  | inside {r r' : Report} {n' : Note} : n' ∈ r.1 → r' ∈ n'.subs → InReport n r' → InReport n r

/-- The schema errors of a report and of the reports inside it. -/
inductive SInReport (p : VPath) : Report → Prop
  | here {r : Report} : p ∈ r.2 → SInReport p r
  | inside {r r' : Report} {n' : Note} : n' ∈ r.1 → r' ∈ n'.subs → SInReport p r' → SInReport p r

/-- The errors of an alternative are at or below the alternative and the data it was tried on. -/
def SubsBelow (n : Note) : Prop :=
  ∀ (i : Nat) r, n.subs[i]? = some r → (r.1 ≠ [] ∨ r.2 ≠ []) ∧
    (∀ n' ∈ r.1, n.schema ++ [idx i] <+: n'.schema ∧ n.data <+: n'.data) ∧ ∀ p ∈ r.2, n.schema ++ [idx i] <+: p

end Verif.Schema
