import Verif.Schema.MetaSpec
import Verif.Schema.AcceptObject
import Verif.Schema.Total
/-!
# What the parts of the schema of schemas accept
-/

namespace Verif.Schema
open Verif

/-- The keywords of a group are not there. -/
def none' (m : List (Bytes × Val)) (ks : List Bytes) : Bool := ks.all fun k => (AMap.get m k).isNone

theorem none'_get {m : List (Bytes × Val)} {ks : List Bytes} (h : none' m ks = true) {k : Bytes} (hk : k ∈ ks) : AMap.get m k = none := by
  have := List.all_eq_true.1 h k hk
  simpa using this

theorem kw_none {m : List (Bytes × Val)} {k : Bytes} {f : Val → M} (h : AMap.get m k = none) : kw m k f = ok := by
  unfold kw; rw [h]

theorem ok_seq (a : M) : seq ok a = a := by
  cases a with
  | none => rfl
  | some r => cases r <;> simp [seq, ok]

variable {E : Env} {rec : Val → Val → M} {m : List (Bytes × Val)} {d : Val}

theorem noRef (h : none' m [kRef] = true) : vRef E rec m d = ok := kw_none (none'_get h (by simp))
theorem noType (h : none' m [kType] = true) : vType E m d = ok := kw_none (none'_get h (by simp))
theorem noEnum (h : none' m [kEnum] = true) : vEnum E m d = ok := kw_none (none'_get h (by simp))
theorem noMultiple (h : none' m [kMultipleOf, kDivisibleBy] = true) : vMultipleOf E m d = ok := by
  unfold vMultipleOf
  rw [none'_get h (by simp), none'_get h (by simp)]; rfl
theorem noNumeric (h : none' m [kMultipleOf, kDivisibleBy, kMinimum, kMaximum] = true) : vNumeric E m d = ok := by
  have h1 : vMultipleOf E m d = ok := by
    unfold vMultipleOf
    rw [none'_get h (by simp), none'_get h (by simp)]; rfl
  have h2 : vMinMax E m d = ok := by
    unfold vMinMax limit
    rw [kw_none (none'_get h (by simp)), kw_none (none'_get h (by simp))]; rfl
  unfold vNumeric
  rw [h1, h2]; split <;> rfl
theorem noString (h : none' m [kMinLength, kMaxLength, kPattern, kFormat] = true) : vString E m d = ok := by
  cases d
  case str s =>
    show seq (seq (kw m kMinLength _) (kw m kMaxLength _)) (seq (kw m kPattern _) (kw m kFormat _)) = ok
    rw [kw_none (none'_get h (by simp)), kw_none (none'_get h (by simp)), kw_none (none'_get h (by simp)), kw_none (none'_get h (by simp))]; rfl
  all_goals rfl
theorem noArray (h : none' m [kMinItems, kMaxItems, kUniqueItems, kItems] = true) : vArray E rec m d = ok := by
  cases d
  case list xs =>
    show seq (seq (kw m kMinItems _) (kw m kMaxItems _)) (seq (kw m kUniqueItems _) (kw m kItems _)) = ok
    rw [kw_none (none'_get h (by simp)), kw_none (none'_get h (by simp)), kw_none (none'_get h (by simp)), kw_none (none'_get h (by simp))]; rfl
  all_goals rfl
theorem each_ok {α : Type} {f : α → M} {xs : List α} (h : ∀ x ∈ xs, f x = ok) : each f xs = ok := by
  induction xs with
  | nil => rfl
  | cons x xs ih =>
    show seq (f x) (each f xs) = ok
    rw [h x (.head _), ih fun y hy => h y (.tail _ hy)]; rfl
theorem noObject (h : none' m [kMinProperties, kMaxProperties, kRequired, kProperties, kPatternProperties, kAdditionalProperties, kDependencies] = true) :
    vObject E rec m d = ok := by
  cases d
  case map dm =>
    show seq (seq (kw m kMinProperties _) (kw m kMaxProperties _)) (seq (kw m kRequired _) (seq (vProperties E rec m dm) (kw m kDependencies _))) = ok
    rw [kw_none (none'_get h (by simp)), kw_none (none'_get h (by simp)), kw_none (none'_get h (by simp)), kw_none (none'_get h (by simp))]
    have h1 : patternsOf E m = ([], true) := by unfold patternsOf; rw [none'_get h (by simp)]
    have h2 : propertiesOf m = ([], true) := by unfold propertiesOf; rw [none'_get h (by simp)]
    unfold vProperties
    rw [h1, h2, each_ok]
    · rfl
    · intro p _
      show seq ok (seq ok (if _ then extra rec m kAdditionalProperties p.2 else ok)) = ok
      have h3 : extra rec m kAdditionalProperties p.2 = ok := kw_none (none'_get h (by simp))
      rw [h3]; split <;> rfl
  all_goals rfl
theorem noCombinations (h : none' m [kAllOf, kAnyOf, kOneOf, kNot] = true) : vCombinations rec m d = ok := by
  show seq (kw m kAllOf _) (seq (kw m kAnyOf _) (seq (kw m kOneOf _) (kw m kNot _))) = ok
  rw [kw_none (none'_get h (by simp)), kw_none (none'_get h (by simp)), kw_none (none'_get h (by simp)), kw_none (none'_get h (by simp))]; rfl

/-- Validation at a depth with all the calls it may need. -/
def V (E : Env) (dep : Nat) (s d : Val) : M := validate E (101 - dep) dep s d

theorem V_map {dep : Nat} (h : dep ≤ 99) : V E dep (.map m) d = body E (V E (dep + 1)) m d := by
  unfold V
  have e : 101 - dep = (101 - (dep + 1)) + 1 := by omega
  rw [e, validate, if_neg (by unfold recursionLimit; omega)]

theorem accV_map {dep : Nat} : Acc (V E dep (.map m) d) ↔ dep ≤ 99 ∧ Acc (body E (V E (dep + 1)) m d) := by
  by_cases h : dep ≤ 99
  · rw [V_map h]; simp [h]
  · refine iff_of_false ?_ fun h' => h h'.1
    unfold V
    by_cases h1 : dep = 100
    · subst h1; simp [validate, recursionLimit, Acc]
    · rw [show 101 - dep = 0 by omega]; simp [validate, Acc]

/-- The keyword's value is known. -/
theorem forall_has {k : Bytes} {w : Val} {P : Val → Prop} (h : AMap.get m k = some w) : (∀ v, has m k v → P v) ↔ P w := by
  constructor
  · intro h'; exact h' w h
  · intro h' v hv; unfold has at hv; rw [h] at hv; cases hv; exact h'

theorem kw_some {k : Bytes} {w : Val} {f : Val → M} (h : AMap.get m k = some w) : kw m k f = f w := by
  unfold kw; rw [h]

/-! ## Types -/

theorem acc_hasType {w : Bytes} {x : Val} : Acc (typeLoop E x [.str w]) ↔ hasType E x (.str w) = some true := by
  unfold typeLoop
  cases h : hasType E x (.str w) with
  | none => simp [withOut, Build.asString, typeLoop, serr, seq, err, Acc]
  | some b => cases b <;> simp [typeLoop]

theorem acc_vType {w : Bytes} {x : Val} (h : AMap.get m kType = some (.str w)) : Acc (vType E m x) ↔ hasType E x (.str w) = some true := by
  unfold vType
  rw [kw_some h]
  exact acc_hasType

theorem is_string {x : Val} : hasType E x (.str wString) = some true ↔ IsText x := by
  have : hasType E x (.str wString) = some (x.ty == .str) := rfl
  rw [this]; cases x <;> simp [Val.ty, IsText]
theorem is_boolean {x : Val} : hasType E x (.str wBoolean) = some true ↔ IsFlag x := by
  have : hasType E x (.str wBoolean) = some (x.ty == .bool) := rfl
  rw [this]; cases x <;> simp [Val.ty, IsFlag]
theorem is_number {x : Val} : hasType E x (.str wNumber) = some true ↔ isNumber x = true := by
  have : hasType E x (.str wNumber) = some (isNumber x) := rfl
  rw [this]; simp
theorem is_array {x : Val} : hasType E x (.str wArray) = some true ↔ ∃ xs, x = .list xs := by
  have : hasType E x (.str wArray) = some (x.ty == .list) := rfl
  rw [this]; cases x <;> simp [Val.ty]
theorem is_object {x : Val} : hasType E x (.str wObject) = some true ↔ ∃ m, x = .map m := by
  have : hasType E x (.str wObject) = some (x.ty == .map) := rfl
  rw [this]; cases x <;> simp [Val.ty]

theorem is_integer (hp : 64 ≤ E.p) {x : Val} : hasType E x (.str wInteger) = some true ↔
    (x.ty = .int ∨ x.ty = .uint) ∨ (x.ty = .flt ∧ ∀ n, value x = some n → (2 ^ 1074 : Int) ∣ n) := by
  have e : hasType E x (.str wInteger) = some (x.ty == .int || x.ty == .uint ||
      (x.ty == .flt && (numLD E.p x).any fun a => ldCompare (ldMod a (LD.ofInt E.p 1)) (LD.ofInt E.p 0) == 0)) := rfl
  rw [e]
  cases x with
  | flt b =>
    have e1 : LD.ofInt E.p 1 = .fin (2 ^ 1074) := by
      rw [LD.ofInt_exact (show Int.natAbs 1 < 2 ^ E.p from Nat.one_lt_two_pow (by omega))]; simp
    have e0 : LD.ofInt E.p 0 = .fin 0 := by
      rw [LD.ofInt_exact (show Int.natAbs 0 < 2 ^ E.p from Nat.pow_pos (by decide))]; simp
    rw [e1, e0]
    simp only [Val.ty, numLD, Option.any_some, value]
    cases h : LD.ofDouble b with
    | nan => simp [ldMod, ldCompare, LD.lt]
    | inf s => simp [ldMod, ldCompare, LD.lt]
    | fin n =>
      have hz : (2 ^ 1074 : Int) ≠ 0 := by exact Int.ne_of_gt (Int.pow_pos (by decide))
      simp only [ldMod, if_neg hz, ldCompare, LD.lt]
      generalize (2 ^ 1074 : Int) = P at hz ⊢
      have hd : Int.tmod n P = 0 ↔ P ∣ n := ⟨Int.dvd_of_tmod_eq_zero, Int.tmod_eq_zero_of_dvd⟩
      rw [show (∀ k, some n = some k → P ∣ k) ↔ Int.tmod n P = 0 from ⟨fun h => hd.2 (h n rfl), fun h k e => by cases e; exact hd.1 h⟩]
      generalize Int.tmod n P = r
      rcases Int.lt_trichotomy r 0 with h | h | h
      · have : ¬ r = 0 := by omega
        simp [h, this]
      · simp [h]
      · have h1 : ¬ r < 0 := by omega
        have h2 : ¬ r = 0 := by omega
        simp [h, h1, h2]
  | _ => simp [Val.ty]

theorem uint_zero : value (.uint 0) = some 0 := by
  simp only [value, Option.some.injEq]
  have : (0 : UInt64).toNat = 0 := rfl
  rw [this]; omega

/-- How a number compares with 0. -/
theorem cmp_zero (hp : 64 ≤ E.p) {x : Val} (hx : isNumber x = true) :
    (∃ n, value x = some n ∧ cmp E.p x (.uint 0) = if n < 0 then -1 else if 0 < n then 1 else 0) ∨
    (∃ b, x = .flt b ∧ LD.ofDouble b = .nan ∧ cmp E.p x (.uint 0) = 0) ∨
    (∃ b, x = .flt b ∧ LD.ofDouble b = .inf false ∧ cmp E.p x (.uint 0) = 1) ∨
    (∃ b, x = .flt b ∧ LD.ofDouble b = .inf true ∧ cmp E.p x (.uint 0) = -1) := by
  have fin : ∀ n, value x = some n → cmp E.p x (.uint 0) = if n < 0 then -1 else if 0 < n then 1 else 0 :=
    fun n hn => cmp_value hp hn uint_zero
  cases x with
  | int i => exact .inl ⟨_, rfl, fin _ rfl⟩
  | uint i => exact .inl ⟨_, rfl, fin _ rfl⟩
  | flt b =>
    have e0 : numLD E.p (.uint 0) = some (.fin 0) := (value_numLD hp uint_zero).1
    have e : cmp E.p (.flt b) (.uint 0) = ldCompare (LD.ofDouble b) (.fin 0) := by
      simp only [cmp, e0]
      rfl
    cases h : LD.ofDouble b with
    | nan => exact .inr (.inl ⟨b, rfl, h, by rw [e, h]; decide⟩)
    | inf s =>
      cases s
      · exact .inr (.inr (.inl ⟨b, rfl, h, by rw [e, h]; decide⟩))
      · exact .inr (.inr (.inr ⟨b, rfl, h, by rw [e, h]; decide⟩))
    | fin n =>
      have hv : value (.flt b) = some n := by simp [value, h]
      exact .inl ⟨n, hv, fin n hv⟩
  | _ => cases hx

/-! ## The parts -/

/-- `{"$ref": …}` -/
theorem acc_refTo {dep : Nat} {base frag : Bytes} {T : Val} (hl : E.loader (base ++ 35 :: frag) = .ok T) {x : Val} :
    Acc (V E dep (refTo base frag) x) ↔ dep ≤ 99 ∧ Acc (V E (dep + 1) T x) := by
  unfold refTo
  rw [accV_map]; unfold body
  rw [noType (by rfl), noEnum (by rfl), noNumeric (by rfl), noString (by rfl), noArray (by rfl), noObject (by rfl), noCombinations (by rfl)]
  simp only [acc_seq, acc_ok, and_true]
  show _ ∧ Acc (withOut (E.loader _) _) ↔ _
  rw [hl]; rfl

/-- `{}` and `{"default": …}` -/
theorem acc_anything {dep : Nat} (h : none' m [kRef, kType, kEnum] = true) (h1 : none' m [kMultipleOf, kDivisibleBy, kMinimum, kMaximum] = true)
    (h2 : none' m [kMinLength, kMaxLength, kPattern, kFormat] = true) (h3 : none' m [kMinItems, kMaxItems, kUniqueItems, kItems] = true)
    (h4 : none' m [kMinProperties, kMaxProperties, kRequired, kProperties, kPatternProperties, kAdditionalProperties, kDependencies] = true)
    (h5 : none' m [kAllOf, kAnyOf, kOneOf, kNot] = true) {x : Val} : Acc (V E dep (.map m) x) ↔ dep ≤ 99 := by
  rw [accV_map]; unfold body
  have r : vRef E (V E (dep + 1)) m x = ok := kw_none (none'_get h (by simp))
  have t : vType E m x = ok := kw_none (none'_get h (by simp))
  have e : vEnum E m x = ok := kw_none (none'_get h (by simp))
  rw [r, t, e, noNumeric h1, noString h2, noArray h3, noObject h4, noCombinations h5]
  simp only [acc_seq, acc_ok, and_true]

theorem acc_typed {dep : Nat} {w : Bytes} {x : Val} : Acc (V E dep (typed w) x) ↔ dep ≤ 99 ∧ hasType E x (.str w) = some true := by
  unfold typed
  rw [accV_map]; unfold body
  rw [noRef (by rfl), noEnum (by rfl), noNumeric (by rfl), noString (by rfl), noArray (by rfl), noObject (by rfl), noCombinations (by rfl)]
  simp only [acc_seq, acc_ok, and_true, true_and]
  rw [acc_vType rfl]

theorem acc_flag {dep : Nat} {x : Val} : Acc (V E dep flag x) ↔ dep ≤ 99 ∧ IsFlag x := by
  unfold flag
  rw [accV_map]; unfold body
  rw [noRef (by rfl), noEnum (by rfl), noNumeric (by rfl), noString (by rfl), noArray (by rfl), noObject (by rfl), noCombinations (by rfl)]
  simp only [acc_seq, acc_ok, and_true, true_and]
  rw [acc_vType rfl, is_boolean]

theorem acc_uriText {dep : Nat} {x : Val} : Acc (V E dep uriText x) ↔ dep ≤ 99 ∧ IsText x := by
  unfold uriText
  rw [accV_map]; unfold body
  rw [noRef (by rfl), noEnum (by rfl), noNumeric (by rfl), noArray (by rfl), noObject (by rfl), noCombinations (by rfl)]
  have h : vString E [(kFormat, .str wUri), (kType, .str wString)] x = ok := by cases x <;> rfl
  simp only [h, acc_seq, acc_ok, and_true, true_and]
  rw [acc_vType rfl, is_string]

theorem acc_regexText {dep : Nat} {x : Val} : Acc (V E dep regexText x) ↔ dep ≤ 99 ∧ IsRegex E x := by
  unfold regexText
  rw [accV_map]; unfold body
  rw [noRef (by rfl), noEnum (by rfl), noNumeric (by rfl), noArray (by rfl), noObject (by rfl), noCombinations (by rfl)]
  simp only [acc_seq, acc_ok, and_true, true_and]
  rw [acc_vType rfl, is_string]
  refine and_congr_right fun _ => ?_
  constructor
  · rintro ⟨⟨t, rfl⟩, h⟩
    have e : vString E [(kFormat, .str wRegex), (kType, .str wString)] (.str t) =
        seq ok (seq ok (if (E.regex (t.takeWhile (· ≠ 0))).isSome then ok else err)) := rfl
    rw [e, ok_seq, ok_seq] at h
    cases hr : E.regex (t.takeWhile (· ≠ 0)) with
    | none => rw [hr] at h; cases h
    | some g => exact ⟨t, g, rfl, hr⟩
  · rintro ⟨t, g, rfl, hg⟩
    refine ⟨⟨t, rfl⟩, ?_⟩
    have e : vString E [(kFormat, .str wRegex), (kType, .str wString)] (.str t) =
        seq ok (seq ok (if (E.regex (t.takeWhile (· ≠ 0))).isSome then ok else err)) := rfl
    rw [e, hg]; rfl

theorem acc_positiveInteger (hp : 64 ≤ E.p) {dep : Nat} {x : Val} : Acc (V E dep positiveInteger x) ↔ dep ≤ 99 ∧ IsSize x := by
  unfold positiveInteger
  rw [accV_map]; unfold body
  rw [noRef (by rfl), noEnum (by rfl), noString (by rfl), noArray (by rfl), noObject (by rfl), noCombinations (by rfl)]
  simp only [acc_seq, acc_ok, and_true, true_and]
  rw [acc_vType rfl, is_integer hp]
  refine and_congr_right fun _ => ?_
  have hn : ∀ hx : isNumber x = true, Acc (vNumeric E [(kMinimum, .uint 0), (kType, .str wInteger)] x) ↔ ¬ cmp E.p x (.uint 0) < 0 := by
    intro hx
    unfold vNumeric
    rw [if_pos hx, noMultiple (by rfl), ok_seq]
    show Acc (seq (if decide (cmp E.p x (.uint 0) < 0) = true then err else ok) ok) ↔ _
    by_cases h : cmp E.p x (.uint 0) < 0 <;> simp [h]
  have hz : (0 : Int) < 2 ^ 1074 := Int.pow_pos (by decide)
  constructor
  · rintro ⟨ht, h⟩
    have hx : isNumber x = true := by
      rcases ht with (h | h) | h
      · cases x <;> simp [Val.ty] at h; rfl
      · cases x <;> simp [Val.ty] at h; rfl
      · cases x <;> simp [Val.ty] at h; rfl
    have h := (hn hx).1 h
    rcases cmp_zero hp hx with ⟨n, h1, h2⟩ | ⟨b, rfl, h1, _⟩ | ⟨b, rfl, h1, _⟩ | ⟨b, rfl, h1, h2⟩
    · refine .inl ⟨n, h1, ?_, ?_⟩
      · rw [h2] at h
        by_cases h3 : n < 0
        · rw [if_pos h3] at h; exact absurd (by decide) h
        · omega
      · rcases ht with (h | h) | h
        · cases x <;> simp [Val.ty] at h
          simp only [value, Option.some.injEq] at h1
          exact ⟨_, by rw [← h1, Int.mul_comm]⟩
        · cases x <;> simp [Val.ty] at h
          simp only [value, Option.some.injEq] at h1
          exact ⟨_, by rw [← h1, Int.mul_comm]⟩
        · exact h.2 n h1
    · exact .inr ⟨b, rfl, .inl h1⟩
    · exact .inr ⟨b, rfl, .inr h1⟩
    · rw [h2] at h; exact absurd (by decide) h
  · intro hs
    have hx : isNumber x = true := by
      rcases hs with ⟨n, h, _⟩ | ⟨b, rfl, _⟩
      · exact (value_numLD hp h).2
      · rfl
    refine ⟨?_, (hn hx).2 ?_⟩
    · cases x <;> simp [isNumber] at hx
      · exact .inl (.inl rfl)
      · exact .inl (.inr rfl)
      · refine .inr ⟨rfl, fun n hv => ?_⟩
        rcases hs with ⟨n', h, _, h3⟩ | ⟨b, e, h⟩
        · rw [hv] at h; cases h; exact h3
        · cases e
          rcases h with h | h <;> simp [value, h] at hv
    · rcases cmp_zero hp hx with ⟨n, h1, h2⟩ | ⟨b, rfl, h1, h2⟩ | ⟨b, rfl, h1, h2⟩ | ⟨b, rfl, h1, h2⟩
      · rcases hs with ⟨n', h3, h4, _⟩ | ⟨b, rfl, h3⟩
        · rw [h1] at h3; cases h3
          rw [h2, if_neg (by omega)]
          split <;> decide
        · rcases h3 with h3 | h3 <;> simp [value, h3] at h1
      · rw [h2]; decide
      · rw [h2]; decide
      · rcases hs with ⟨n', h3, h4, _⟩ | ⟨b', e, h3⟩
        · simp [value, h1] at h3
        · cases e; rw [h1] at h3; simp at h3

theorem acc_positiveNumber (hp : 64 ≤ E.p) {dep : Nat} {x : Val} : Acc (V E dep positiveNumber x) ↔ dep ≤ 99 ∧ IsPositive x := by
  unfold positiveNumber
  rw [accV_map]; unfold body
  rw [noRef (by rfl), noEnum (by rfl), noString (by rfl), noArray (by rfl), noObject (by rfl), noCombinations (by rfl)]
  simp only [acc_seq, acc_ok, and_true, true_and]
  rw [acc_vType rfl, is_number]
  refine and_congr_right fun _ => ?_
  have hn : ∀ hx : isNumber x = true, Acc (vNumeric E [(kExclusiveMinimum, .bool true), (kMinimum, .uint 0), (kType, .str wNumber)] x) ↔ 0 < cmp E.p x (.uint 0) := by
    intro hx
    unfold vNumeric
    rw [if_pos hx, noMultiple (by rfl), ok_seq]
    show Acc (seq (if decide (cmp E.p x (.uint 0) < 0) = true then err else
      (if (true && cmp E.p x (.uint 0) == 0) = true then err else ok)) ok) ↔ _
    by_cases h : cmp E.p x (.uint 0) < 0
    · have : ¬ 0 < cmp E.p x (.uint 0) := by omega
      simp [h, this]
    · by_cases h0 : cmp E.p x (.uint 0) = 0
      · simp [h0]
      · have : 0 < cmp E.p x (.uint 0) := by omega
        simp [h0, h, this]
  constructor
  · rintro ⟨hx, h⟩
    have h := (hn hx).1 h
    rcases cmp_zero hp hx with ⟨n, h1, h2⟩ | ⟨b, rfl, h1, h2⟩ | ⟨b, rfl, h1, h2⟩ | ⟨b, rfl, h1, h2⟩
    · refine .inl ⟨n, h1, ?_⟩
      rw [h2] at h
      by_cases h3 : n < 0
      · rw [if_pos h3] at h; exact absurd h (by decide)
      · rw [if_neg h3] at h
        by_cases h4 : 0 < n
        · exact h4
        · rw [if_neg h4] at h; exact absurd h (by decide)
    · rw [h2] at h; exact absurd h (by decide)
    · exact .inr ⟨b, rfl, h1⟩
    · rw [h2] at h; exact absurd h (by decide)
  · intro hs
    have hx : isNumber x = true := by
      rcases hs with ⟨n, h, _⟩ | ⟨b, rfl, _⟩
      · exact (value_numLD hp h).2
      · rfl
    refine ⟨hx, (hn hx).2 ?_⟩
    rcases cmp_zero hp hx with ⟨n, h1, h2⟩ | ⟨b, rfl, h1, h2⟩ | ⟨b, rfl, h1, h2⟩ | ⟨b, rfl, h1, h2⟩
    · rcases hs with ⟨n', h3, h4⟩ | ⟨b, rfl, h3⟩
      · rw [h1] at h3; cases h3
        rw [h2, if_neg (by omega), if_pos h4]; decide
      · simp [value, h3] at h1
    · rcases hs with ⟨n', h3, h4⟩ | ⟨b', e, h3⟩
      · simp [value, h1] at h3
      · cases e; rw [h1] at h3; simp at h3
    · rw [h2]; decide
    · rcases hs with ⟨n', h3, h4⟩ | ⟨b', e, h3⟩
      · simp [value, h1] at h3
      · cases e; rw [h1] at h3; simp at h3

theorem acc_positiveIntegerDefault0 (hp : 64 ≤ E.p) {base : Bytes} (hl : E.loader (base ++ 35 :: (inDefinitions ++ nPositiveInteger)) = .ok positiveInteger)
    {dep : Nat} {x : Val} : Acc (V E dep (positiveIntegerDefault0 base) x) ↔ dep ≤ 97 ∧ IsSize x := by
  unfold positiveIntegerDefault0
  rw [accV_map]; unfold body
  rw [noRef (by rfl), noType (by rfl), noEnum (by rfl), noNumeric (by rfl), noString (by rfl), noArray (by rfl), noObject (by rfl)]
  simp only [acc_seq, acc_ok, and_true, true_and]
  have e : vCombinations (V E (dep + 1)) [(kAllOf, .list [refTo base (inDefinitions ++ nPositiveInteger), .map [(kDefault, .uint 0)]])] x =
      seq (each (fun s => V E (dep + 1) s x) [refTo base (inDefinitions ++ nPositiveInteger), .map [(kDefault, .uint 0)]]) (seq ok (seq ok ok)) := rfl
  rw [e]
  simp only [acc_seq, acc_ok, and_true, acc_each, List.mem_cons, List.not_mem_nil, or_false, forall_eq_or_imp, forall_eq]
  rw [acc_refTo hl, acc_positiveInteger hp, acc_anything rfl rfl rfl rfl rfl rfl]
  constructor
  · rintro ⟨_, ⟨_, _, h⟩, _⟩; exact ⟨by omega, h⟩
  · rintro ⟨h1, h2⟩; exact ⟨by omega, ⟨by omega, by omega, h2⟩, by omega⟩

theorem acc_simpleTypes {dep : Nat} {x : Val} : Acc (V E dep simpleTypes x) ↔ dep ≤ 99 ∧ IsTypeName x := by
  unfold simpleTypes
  rw [accV_map]; unfold body
  rw [noRef (by rfl), noType (by rfl), noNumeric (by rfl), noString (by rfl), noArray (by rfl), noObject (by rfl), noCombinations (by rfl)]
  simp only [acc_seq, acc_ok, and_true, true_and]
  rw [acc_enum, forall_has (P := fun v => ∃ vs, v = .list vs ∧ ∃ y ∈ vs, veq E.p y x = true) rfl]
  refine and_congr_right fun _ => ?_
  have key : ∀ w : Bytes, veq E.p (.str w) x = true ↔ x = .str w := by
    intro w
    have h0 : ∀ y : Val, y.ty ≠ .str → cmp E.p (.str w) y ≠ 0 := by
      intro y hy
      cases y <;> simp [Val.ty] at hy <;> simp [cmp, numLD]
    cases x with
    | str t => simp only [veq, cmp, beq_iff_eq, strCompare_eq_zero, Val.str.injEq]; exact eq_comm
    | _ => simp only [veq, beq_iff_eq, reduceCtorEq, iff_false]; exact h0 _ nofun
  simp only [Val.list.injEq, exists_eq_left', List.mem_cons, List.not_mem_nil, or_false, exists_eq_or_imp, exists_eq_left, key]
  unfold IsTypeName
  simp only [List.mem_cons, List.not_mem_nil, or_false]
  constructor
  · rintro (h | h | h | h | h | h | h) <;> exact ⟨_, h, by simp⟩
  · rintro ⟨w, rfl, h⟩
    rcases h with rfl | rfl | rfl | rfl | rfl | rfl | rfl <;> simp

/-! ## Lists -/

theorem acc_min1 {xs : List Val} (h : AMap.get m kMinItems = some (.uint 1)) (h' : AMap.get m kMaxItems = none) :
    Acc (vArrayLength m (.list xs)) ↔ xs.length % 2 ^ 32 ≠ 0 := by
  unfold vArrayLength sizeLimit
  rw [kw_some h, kw_none h']
  show Acc (seq (if decide (size (.list xs) < 1) = true then err else ok) ok) ↔ _
  have e : size (.list xs) = xs.length % 2 ^ 32 := rfl
  rw [e]
  by_cases h0 : xs.length % 2 ^ 32 = 0
  · rw [h0]; simp [seq, err, Acc]
  · have : ¬ xs.length % 2 ^ 32 < 1 := by omega
    simp [this, h0]

theorem acc_itemsOf {m im : List (Bytes × Val)} {xs : List Val} (h : AMap.get m kItems = some (.map im)) :
    Acc (vItems rec m xs) ↔ ∀ x ∈ xs, Acc (rec (.map im) x) := by
  unfold vItems
  rw [kw_some h]
  exact acc_each _ _

theorem acc_uniqueOf {xs : List Val} (h : AMap.get m kUniqueItems = some (.bool true)) : Acc (vUniqueItems E m xs) ↔ Distinct E xs := by
  unfold vUniqueItems
  rw [kw_some h]
  exact acc_unique E xs

theorem acc_stringArray {dep : Nat} {x : Val} : Acc (V E dep stringArray x) ↔ dep ≤ 99 ∧ SetOf E (fun y => dep ≤ 98 ∧ IsText y) x := by
  unfold stringArray
  rw [accV_map]; unfold body
  rw [noRef (by rfl), noEnum (by rfl), noNumeric (by rfl), noString (by rfl), noObject (by rfl), noCombinations (by rfl)]
  simp only [acc_seq, acc_ok, and_true, true_and]
  rw [acc_vType rfl, is_array]
  refine and_congr_right fun _ => ?_
  have key : ∀ xs, Acc (vArray E (V E (dep + 1)) [(kItems, typed wString), (kMinItems, .uint 1), (kType, .str wArray), (kUniqueItems, .bool true)] (.list xs)) ↔
      xs.length % 2 ^ 32 ≠ 0 ∧ (∀ y ∈ xs, dep ≤ 98 ∧ IsText y) ∧ Distinct E xs := by
    intro xs
    show Acc (seq _ (seq _ _)) ↔ _
    rw [acc_seq, acc_seq, acc_min1 rfl rfl, acc_uniqueOf rfl, acc_itemsOf rfl]
    have : ∀ y, Acc (V E (dep + 1) (.map [(kType, .str wString)]) y) ↔ dep ≤ 98 ∧ IsText y := fun y => by
      have := acc_typed (E := E) (dep := dep + 1) (w := wString) (x := y)
      unfold typed at this
      rw [this, is_string]; exact and_congr_left' (by omega)
    simp only [this]
    exact ⟨fun ⟨a, b, c⟩ => ⟨a, c, b⟩, fun ⟨a, b, c⟩ => ⟨a, c, b⟩⟩
  constructor
  · rintro ⟨⟨xs, rfl⟩, h⟩; exact ⟨xs, rfl, (key xs).1 h⟩
  · rintro ⟨xs, rfl, h⟩; exact ⟨⟨xs, rfl⟩, (key xs).2 h⟩

theorem acc_choices {dep : Nat} {x : Val} : Acc (V E dep choices x) ↔ dep ≤ 99 ∧ SetOf E (fun _ => True) x := by
  unfold choices
  rw [accV_map]; unfold body
  rw [noRef (by rfl), noEnum (by rfl), noNumeric (by rfl), noString (by rfl), noObject (by rfl), noCombinations (by rfl)]
  simp only [acc_seq, acc_ok, and_true, true_and]
  rw [acc_vType rfl, is_array]
  refine and_congr_right fun _ => ?_
  have key : ∀ xs, Acc (vArray E (V E (dep + 1)) [(kMinItems, .uint 1), (kType, .str wArray), (kUniqueItems, .bool true)] (.list xs)) ↔
      xs.length % 2 ^ 32 ≠ 0 ∧ (∀ y ∈ xs, True) ∧ Distinct E xs := by
    intro xs
    show Acc (seq _ (seq _ ok)) ↔ _
    rw [acc_seq, acc_seq, acc_min1 rfl rfl, acc_uniqueOf rfl]
    simp
  constructor
  · rintro ⟨⟨xs, rfl⟩, h⟩; exact ⟨xs, rfl, (key xs).1 h⟩
  · rintro ⟨xs, rfl, h⟩; exact ⟨⟨xs, rfl⟩, (key xs).2 h⟩

theorem acc_typeList {base : Bytes} (hl : E.loader (base ++ 35 :: (inDefinitions ++ nSimpleTypes)) = .ok simpleTypes) {dep : Nat} {x : Val} :
    Acc (V E dep (typeList base) x) ↔ dep ≤ 99 ∧ SetOf E (fun y => dep ≤ 97 ∧ IsTypeName y) x := by
  unfold typeList
  rw [accV_map]; unfold body
  rw [noRef (by rfl), noEnum (by rfl), noNumeric (by rfl), noString (by rfl), noObject (by rfl), noCombinations (by rfl)]
  simp only [acc_seq, acc_ok, and_true, true_and]
  rw [acc_vType rfl, is_array]
  refine and_congr_right fun _ => ?_
  have key : ∀ xs, Acc (vArray E (V E (dep + 1)) [(kItems, refTo base (inDefinitions ++ nSimpleTypes)), (kMinItems, .uint 1), (kType, .str wArray), (kUniqueItems, .bool true)] (.list xs)) ↔
      xs.length % 2 ^ 32 ≠ 0 ∧ (∀ y ∈ xs, dep ≤ 97 ∧ IsTypeName y) ∧ Distinct E xs := by
    intro xs
    show Acc (seq _ (seq _ _)) ↔ _
    rw [acc_seq, acc_seq, acc_min1 rfl rfl, acc_uniqueOf rfl, acc_itemsOf rfl]
    have : ∀ y, Acc (V E (dep + 1) (.map [(kRef, .str (base ++ 35 :: (inDefinitions ++ nSimpleTypes)))]) y) ↔ dep ≤ 97 ∧ IsTypeName y := fun y => by
      have := acc_refTo (E := E) (dep := dep + 1) hl (x := y)
      unfold refTo at this
      rw [this, acc_simpleTypes]
      constructor
      · rintro ⟨_, _, h⟩; exact ⟨by omega, h⟩
      · rintro ⟨_, h⟩; exact ⟨by omega, by omega, h⟩
    simp only [this]
    exact ⟨fun ⟨a, b, c⟩ => ⟨a, c, b⟩, fun ⟨a, b, c⟩ => ⟨a, c, b⟩⟩
  constructor
  · rintro ⟨⟨xs, rfl⟩, h⟩; exact ⟨xs, rfl, (key xs).1 h⟩
  · rintro ⟨xs, rfl, h⟩; exact ⟨⟨xs, rfl⟩, (key xs).2 h⟩

theorem acc_schemaArray {base : Bytes} (hl : E.loader (base ++ 35 :: []) = .ok (metaSchema base)) {dep : Nat} {x : Val} :
    Acc (V E dep (schemaArray base) x) ↔ dep ≤ 99 ∧ ListOf (fun y => dep ≤ 98 ∧ Acc (V E (dep + 2) (metaSchema base) y)) x := by
  unfold schemaArray
  rw [accV_map]; unfold body
  rw [noRef (by rfl), noEnum (by rfl), noNumeric (by rfl), noString (by rfl), noObject (by rfl), noCombinations (by rfl)]
  simp only [acc_seq, acc_ok, and_true, true_and]
  rw [acc_vType rfl, is_array]
  refine and_congr_right fun _ => ?_
  have key : ∀ xs, Acc (vArray E (V E (dep + 1)) [(kItems, refTo base []), (kMinItems, .uint 1), (kType, .str wArray)] (.list xs)) ↔
      xs.length % 2 ^ 32 ≠ 0 ∧ (∀ y ∈ xs, dep ≤ 98 ∧ Acc (V E (dep + 2) (metaSchema base) y)) := by
    intro xs
    show Acc (seq _ (seq ok _)) ↔ _
    rw [acc_seq, acc_seq, acc_min1 rfl rfl, acc_itemsOf rfl]
    have : ∀ y, Acc (V E (dep + 1) (.map [(kRef, .str (base ++ 35 :: []))]) y) ↔ dep ≤ 98 ∧ Acc (V E (dep + 2) (metaSchema base) y) := fun y => by
      have := acc_refTo (E := E) (dep := dep + 1) hl (x := y)
      unfold refTo at this
      rw [this]; exact and_congr_left' (by omega)
    simp only [this, acc_ok, true_and]
  constructor
  · rintro ⟨⟨xs, rfl⟩, h⟩; exact ⟨xs, rfl, (key xs).1 h⟩
  · rintro ⟨xs, rfl, h⟩; exact ⟨⟨xs, rfl⟩, (key xs).2 h⟩

/-! ## Alternatives -/

/-- Validation stopped. -/
def Stops (r : M) : Prop := ∃ e s, r = some (.stop e s)

theorem stops_seq {a : M} (h : Stops a) (b : M) : Stops (seq a b) := by
  obtain ⟨e, s, rfl⟩ := h; exact ⟨e, s, rfl⟩

theorem stops_limit (s d : Val) : Stops (V E 100 s d) := ⟨false, true, rfl⟩

theorem acc_any2 {a b : Val} : Acc (anyOfLoop rec d [a, b]) → Acc (rec a d) ∨ Acc (rec b d) := by
  rw [acc_anyOfLoop]
  rintro ⟨pre, s, post, h, _, hs⟩
  have hs := verdict_accept.1 hs
  match pre, h with
  | [], h => cases h; exact .inl hs
  | [_], h => cases h; exact .inr hs
  | [_, _], h => cases h
  | _ :: _ :: _ :: _, h => cases h

theorem any2_acc {a b : Val} (h : Acc (rec a d) ∨ (Stops (rec a d) ∧ Acc (rec b d))) : Acc (anyOfLoop rec d [a, b]) := by
  rcases h with h | ⟨⟨e, s, h⟩, h'⟩
  · simp only [anyOfLoop, h]; rfl
  · simp only [anyOfLoop, h, h']; rfl

theorem acc_anyBody {m : List (Bytes × Val)} {a b : Val} (hm : m = [(kAnyOf, .list [a, b]), (kDefault, .map [])] ∨ m = [(kAnyOf, .list [a, b])]) :
    Acc (body E rec m d) ↔ Acc (anyOfLoop rec d [a, b]) := by
  rcases hm with rfl | rfl
  all_goals
    unfold body
    rw [noRef (by rfl), noType (by rfl), noEnum (by rfl), noNumeric (by rfl), noString (by rfl), noArray (by rfl), noObject (by rfl)]
    simp only [acc_seq, acc_ok, true_and]
    show Acc (seq ok (seq (anyOfLoop rec d [a, b]) (seq ok ok))) ↔ _
    simp only [acc_seq, acc_ok, true_and, and_true]

/-! ## Objects -/

theorem acc_mapBody {m im : List (Bytes × Val)} (hm : m = [(kAdditionalProperties, .map im), (kDefault, .map []), (kType, .str wObject)] ∨ m = [(kAdditionalProperties, .map im), (kType, .str wObject)]) :
    Acc (body E rec m d) ↔ MapOf (fun y => Acc (rec (.map im) y)) d := by
  have ht : AMap.get m kType = some (.str wObject) := by rcases hm with rfl | rfl <;> rfl
  have hb : Acc (body E rec m d) ↔ Acc (vType E m d) ∧ Acc (vObject E rec m d) := by
    rcases hm with rfl | rfl
    all_goals
      unfold body
      rw [noRef (by rfl), noEnum (by rfl), noNumeric (by rfl), noString (by rfl), noArray (by rfl), noCombinations (by rfl)]
      simp only [acc_seq, acc_ok, true_and, and_true]
  rw [hb, acc_vType ht, is_object]
  have key : ∀ dm, Acc (vObject E rec m (.map dm)) ↔ ∀ k y, (k, y) ∈ dm → Acc (rec (.map im) y) := by
    intro dm
    have e : vObject E rec m (.map dm) = seq ok (seq ok (seq (seq ok (seq ok (each (fun p => seq ok (seq ok (rec (.map im) p.2))) dm))) ok)) := by
      rcases hm with rfl | rfl <;> rfl
    rw [e]
    simp only [acc_seq, acc_ok, true_and, and_true, acc_each]
    exact ⟨fun h k y hy => h (k, y) hy, fun h p hp => h p.1 p.2 hp⟩
  constructor
  · rintro ⟨⟨dm, rfl⟩, h⟩; exact ⟨dm, rfl, (key dm).1 h⟩
  · rintro ⟨dm, rfl, h⟩; exact ⟨⟨dm, rfl⟩, (key dm).2 h⟩

theorem acc_schemasByName {base : Bytes} (hl : E.loader (base ++ 35 :: []) = .ok (metaSchema base)) {dep : Nat} {x : Val} :
    Acc (V E dep (schemasByName base) x) ↔ dep ≤ 99 ∧ MapOf (fun y => dep ≤ 98 ∧ Acc (V E (dep + 2) (metaSchema base) y)) x := by
  unfold schemasByName
  rw [accV_map]
  unfold refTo
  rw [acc_mapBody (.inl rfl)]
  have : ∀ y, Acc (V E (dep + 1) (.map [(kRef, .str (base ++ 35 :: []))]) y) ↔ dep ≤ 98 ∧ Acc (V E (dep + 2) (metaSchema base) y) := fun y => by
    have := acc_refTo (E := E) (dep := dep + 1) hl (x := y)
    unfold refTo at this
    rw [this]; exact and_congr_left' (by omega)
  simp only [this]

end Verif.Schema
