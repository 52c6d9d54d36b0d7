import Verif.Schema.Height
/-!
# C36 and C37: limits, required keys, enumerations, unique items
-/

namespace Verif.Schema

/-- The value of a finite number, as a multiple of 2^-1074 (every double and every integer is
one). -/
def value : Val → Option Int
  | .int i => some (i.toInt * 2 ^ 1074)
  | .uint u => some (u.toNat * 2 ^ 1074)
  | .flt b => match LD.ofDouble b with
    | .fin n => some n
    | _ => none
  | _ => none

theorem value_numLD {p : Nat} (hp : 64 ≤ p) {v : Val} {a : Int} (h : value v = some a) :
    numLD p v = some (.fin a) ∧ isNumber v = true := by
  have big : ∀ n : Nat, n < 2 ^ 64 → n < 2 ^ p := fun n h =>
    Nat.lt_of_lt_of_le h (Nat.pow_le_pow_right (by omega) hp)
  cases v with
  | int i =>
    simp only [value, Option.some.injEq] at h
    have h1 := i.toInt_lt
    have h2 := i.le_toInt
    simp only [numLD, isNumber, and_true]; rw [LD.ofInt_exact (big _ (by omega)), h]
  | uint u =>
    simp only [value, Option.some.injEq] at h
    have := u.toNat_lt
    simp only [numLD, isNumber, and_true]; rw [LD.ofInt_exact (big _ (by omega)), h]
  | flt b =>
    simp only [value] at h
    simp only [numLD, isNumber, and_true]
    split at h
    · rename_i n hn; rw [hn]; cases h; rfl
    · cases h
  | _ => simp [value] at h

/-- Numbers compare by value. -/
theorem cmp_value {p : Nat} (hp : 64 ≤ p) {v w : Val} {a b : Int} (hv : value v = some a)
    (hw : value w = some b) : cmp p v w = if a < b then -1 else if b < a then 1 else 0 := by
  have h1 := (value_numLD hp hv).1
  have h2 := (value_numLD hp hw).1
  have : cmp p v w = ldCompare (.fin a) (.fin b) := by
    cases v <;> simp [value] at hv <;> cases w <;> simp [value] at hw <;> simp [cmp, h1, h2]
  rw [this]
  simp [ldCompare, LD.lt]

/-- The divisor in force. -/
def divisor (m : List (Bytes × Val)) (q : Val) : Prop :=
  has m kMultipleOf q ∨ (lacks m kMultipleOf ∧ has m kDivisibleBy q)

theorem zero_value : value (.int 0) = some 0 := by
  simp only [value, Option.some.injEq]
  have : (0 : Int64).toInt = 0 := rfl
  rw [this]; omega

theorem intVal_value {v : Val} {n : Int} (h : intVal v = some n) : value v = some (n * 2 ^ 1074) := by
  cases v <;> simp [intVal] at h <;> subst h <;> rfl

theorem rem_zero_iff {p : Nat} (hp : 64 ≤ p) {d q : Val} {i n : Int} (hd : intVal d = some i)
    (hq : intVal q = some n) (hn : 0 < n) (hs : 0 ≤ i ∨ (d.ty = .int ∧ q.ty = .int)) :
    (∃ r, arith (fun _ v _ => v) .rem d q = .ok r ∧ cmp p r (.int 0) = 0) ↔ n ∣ i := by
  have hrep : representable d q (Op.rem.exact i n) := by
    have hlt : ∀ (z : Val) (c : Int), intVal z = some c → -2 ^ 63 ≤ c ∧ c < 2 ^ 64 := by
      intro z c hz
      cases z <;> simp [intVal] at hz <;> subst hz
      · rename_i k; have := k.toInt_lt; have := k.le_toInt; omega
      · rename_i k; have := k.toNat_lt; omega
    by_cases ht : d.ty = .int ∧ q.ty = .int
    · left
      refine ⟨ht.1, ht.2, ?_⟩
      have : -2 ^ 63 ≤ i ∧ i < 2 ^ 63 := by
        cases d <;> simp [Val.ty] at ht
        simp [intVal] at hd; subst hd
        rename_i k; have := k.toInt_lt; have := k.le_toInt; omega
      exact tmod_bound this.1 this.2
    · right
      have h0 : 0 ≤ i := by rcases hs with h | h; exact h; exact absurd h ht
      have hlt' := hlt d i hd
      refine ⟨?_, ?_⟩
      · cases d <;> simp [intVal] at hd <;> cases q <;> simp [intVal] at hq <;> simp_all [Val.ty]
      · simp only [Op.exact]
        have e : i.tmod n = i % n := Int.tmod_eq_emod_of_nonneg h0
        rw [e]
        have := Int.emod_nonneg i (by omega : n ≠ 0)
        have := Int.emod_lt_of_pos i hn
        have := hlt q n hq
        omega
  obtain ⟨x, hx, hr⟩ := integer_arithmetic_exact_partial (fun _ v _ => v) .rem hd hq hrep
    (fun _ => by omega) (fun _ _ _ => by omega) (fun _ hu => by
      refine ⟨?_, by omega⟩
      rcases hs with h | ⟨h1, h2⟩
      · exact h
      · rw [h1, h2] at hu; rcases hu with h | h <;> cases h)
  have hdvd : n ∣ i ↔ Op.rem.exact i n = 0 := by
    simp only [Op.exact]; exact Int.dvd_iff_tmod_eq_zero
  have hxi : intVal x = some (Op.rem.exact i n) := by
    rcases hr with ⟨_, _, k, rfl, hk⟩ | ⟨_, u, rfl, hu⟩
    · simp [intVal, hk]
    · simp [intVal, hu]
  have hz : intVal (.int 0) = some 0 := rfl
  have hc : cmp p x (.int 0) = 0 ↔ Op.rem.exact i n = 0 := by
    rw [int_compare_by_value hp hxi hz]
    split <;> try split
    all_goals (first | omega | (constructor <;> intro h <;> omega))
  rw [hdvd, ← hc]
  constructor
  · rintro ⟨r, h1, h2⟩; rw [hx] at h1; cases h1; exact h2
  · intro h; exact ⟨x, hx, h⟩

/-- C36, numbers: with a `long double` of at least 64 bits, a schema accepts a finite number
exactly when it is within the stated inclusive or exclusive limits, is a multiple of the stated
integer, and the schema without these keywords accepts it.  Assumed: the limits are finite
numbers, the exclusive flags booleans; a divisor is a positive integer, and then the number is
an integer that is not negative or shares the Integer type with the divisor. -/
theorem number_limits_exact_partial (E : Env) (hp : 64 ≤ E.p) (m : List (Bytes × Val)) (d : Val) (a : Int)
    (ha : value d = some a)
    (hlim : ∀ k l, k ∈ [kMinimum, kMaximum] → has m k l → ∃ b, value l = some b)
    (hexc : ∀ k x, k ∈ [kExclusiveMinimum, kExclusiveMaximum] → has m k x → ∃ b, x = .bool b)
    (hdiv : ∀ q, divisor m q → ∃ n i, intVal q = some n ∧ 0 < n ∧ intVal d = some i ∧
      (0 ≤ i ∨ (d.ty = .int ∧ q.ty = .int))) :
    alone E (.map m) d = .accept ↔
      (∀ l b, has m kMinimum l → value l = some b →
        b ≤ a ∧ (has m kExclusiveMinimum (.bool true) → b < a)) ∧
      (∀ l b, has m kMaximum l → value l = some b →
        a ≤ b ∧ (has m kExclusiveMaximum (.bool true) → a < b)) ∧
      (∀ q n i, divisor m q → intVal q = some n → intVal d = some i → n ∣ i) ∧
      alone E (.map (strip numberKeys m)) d = .accept := by
  have hnum := (value_numLD hp ha).2
  rw [alone_accept, alone_accept, strip_number]
  simp only [← and_assoc]
  refine and_congr_left fun _ => ?_
  simp only [hnum, true_implies, and_assoc]
  constructor
  · intro v
    refine ⟨?_, ?_, ?_⟩
    · intro l b hl hb
      obtain ⟨_, h2, h3⟩ := v.minimum l hl
      rw [cmp_value hp ha hb] at h2 h3
      refine ⟨by split at h2 <;> omega, fun hx => ?_⟩
      obtain ⟨c, hc, hc'⟩ := h3 _ hx
      simp only [asBool, Out.ok.injEq] at hc
      have := hc' hc.symm
      split at h2
      · omega
      · split at this <;> omega
    · intro l b hl hb
      obtain ⟨_, h2, h3⟩ := v.maximum l hl
      rw [cmp_value hp ha hb] at h2 h3
      refine ⟨by split at h2 <;> (try split at h2) <;> omega, fun hx => ?_⟩
      obtain ⟨c, hc, hc'⟩ := h3 _ hx
      simp only [asBool, Out.ok.injEq] at hc
      have := hc' hc.symm
      split at h2 <;> (try split at h2) <;> (try split at this) <;> omega
    · intro q n i hq hn hi
      obtain ⟨n', i', h1, h2, h3, h4⟩ := hdiv q hq
      rw [hn] at h1; cases h1
      rw [hi] at h3; cases h3
      have hty : d.ty ≠ .flt ∧ q.ty ≠ .flt := by
        constructor
        · cases d <;> simp [intVal] at hi <;> simp [Val.ty]
        · cases q <;> simp [intVal] at hn <;> simp [Val.ty]
      exact (rem_zero_iff hp hi hn h2 h4).mp ((v.multipleOf q hq).2.2.1 hty.1 hty.2)
  · rintro ⟨h1, h2, h3⟩
    refine ⟨?_, ?_, ?_⟩
    · intro l hl
      obtain ⟨b, hb⟩ := hlim kMinimum l (by simp) hl
      obtain ⟨g1, g2⟩ := h1 l b hl hb
      refine ⟨(value_numLD hp hb).2, ?_, ?_⟩
      · rw [cmp_value hp ha hb]; split <;> (try split) <;> omega
      · intro x hx
        obtain ⟨c, rfl⟩ := hexc _ x (by simp) hx
        refine ⟨c, rfl, ?_⟩
        rintro rfl
        have := g2 hx
        rw [cmp_value hp ha hb]; split <;> (try split) <;> omega
    · intro l hl
      obtain ⟨b, hb⟩ := hlim kMaximum l (by simp) hl
      obtain ⟨g1, g2⟩ := h2 l b hl hb
      refine ⟨(value_numLD hp hb).2, ?_, ?_⟩
      · rw [cmp_value hp ha hb]; split <;> (try split) <;> omega
      · intro x hx
        obtain ⟨c, rfl⟩ := hexc _ x (by simp) hx
        refine ⟨c, rfl, ?_⟩
        rintro rfl
        have := g2 hx
        rw [cmp_value hp ha hb]; split <;> (try split) <;> omega
    · intro q hq
      obtain ⟨n, i, e1, e2, e3, e4⟩ := hdiv q hq
      have hty : d.ty ≠ .flt ∧ q.ty ≠ .flt := by
        constructor
        · cases d <;> simp [intVal] at e3 <;> simp [Val.ty]
        · cases q <;> simp [intVal] at e1 <;> simp [Val.ty]
      refine ⟨(value_numLD hp (intVal_value e1)).2, ?_, ?_, ?_⟩
      · rw [int_compare_by_value hp e1 (rfl : intVal (.int 0) = some 0)]
        have : (0 : Int64).toInt = 0 := rfl
        simp only [this]
        split <;> (try split) <;> omega
      · intro _ _; exact (rem_zero_iff hp e3 e1 e2 e4).mpr (h3 q n i hq e1 e3)
      · rintro (h | h)
        · exact absurd h hty.1
        · exact absurd h hty.2

/-- 5 with {"minimum": 5, "maximum": 7.5, "exclusiveMaximum": true, "multipleOf": 5}. -/
def sampleLimits : List (Bytes × Val) :=
  [(kExclusiveMaximum, .bool true), (kMaximum, .flt 0x401e000000000000), (kMinimum, .int 5), (kMultipleOf, .uint 5)]

example : value (.int 5) = some (5 * 2 ^ 1074) := by decide +kernel
example : ∀ k l, k ∈ [kMinimum, kMaximum] → has sampleLimits k l → ∃ b, value l = some b := by
  intro k l hk hl
  simp only [List.mem_cons, List.not_mem_nil, or_false] at hk
  rcases hk with rfl | rfl
  · cases hl; exact ⟨5 * 2 ^ 1074, by decide +kernel⟩
  · cases hl; exact ⟨15 * 2 ^ 1073, by decide +kernel⟩
example : alone (envOf .null) (.map sampleLimits) (.int 5) = .accept ∧
    alone (envOf .null) (.map sampleLimits) (.int 6) = .reject ∧
    alone (envOf .null) (.map sampleLimits) (.int 10) = .reject ∧
    alone (envOf .null) (.map sampleLimits) (.uint 4) = .reject := by decide +kernel

/-- C36 is false of a negative number and an Unsigned divisor: -3 is "not" a multiple of 3. -/
theorem multipleOf_negative_false :
    alone (envOf .null) (.map [(kMultipleOf, .uint 3)]) (.int (-3)) = .reject := by decide +kernel

/-- C36 is false of negative fractions: -1.5 is accepted as a multiple of 1.0. -/
theorem multipleOf_negative_float_false :
    alone (envOf .null) (.map [(kMultipleOf, .flt 0x3ff0000000000000)]) (.flt 0xbff8000000000000) = .accept := by
  decide +kernel

/-- A divisor of 0 passes the check of the schema and divides by zero. -/
theorem multipleOf_zero_ub (E : Env) :
    alone E (.map [(kMultipleOf, .int 0)]) (.int 5) = .abnormal ∧
      validate E 101 0 (.map [(kMultipleOf, .int 0)]) (.int 5) = some .ub := by
  have hc : cmp E.p (.int 0) (.int 0) = 0 := cmp_refl _ _
  have : validate E 101 0 (.map [(kMultipleOf, .int 0)]) (.int 5) = some .ub := by
    have hm : vMultipleOf E [(kMultipleOf, .int 0)] (.int 5) = some .ub := by
      have : AMap.get [(kMultipleOf, Val.int 0)] kMultipleOf = some (.int 0) := rfl
      unfold vMultipleOf
      rw [this]
      simp only [Option.some_or]
      rw [if_neg (by rw [hc]; simp [isNumber]), if_neg (by simp [Val.ty])]
      rfl
    show (if 0 > recursionLimit then err else _) = _
    rw [if_neg (by decide)]
    show body E (validate E 100 (0 + 1)) _ _ = _
    unfold body
    have g : ∀ k f, k ≠ kMultipleOf → kw [(kMultipleOf, Val.int 0)] k f = ok := by
      intro k f hk
      simp [kw, AMap.get, Ne.symm hk]
    have r1 : vRef E (validate E 100 (0 + 1)) [(kMultipleOf, .int 0)] (.int 5) = ok := g _ _ (by decide)
    have r2 : vType E [(kMultipleOf, .int 0)] (.int 5) = ok := g _ _ (by decide)
    have r3 : vEnum E [(kMultipleOf, .int 0)] (.int 5) = ok := g _ _ (by decide)
    rw [r1, r2, r3]
    simp only [vNumeric, isNumber, if_true, hm]
    rfl
  exact ⟨by unfold alone; rw [show recursionLimit + 1 = 101 from rfl, this]; rfl, this⟩

/-! ## Sizes -/

/-- A limit that is a natural number. -/
def natLimit : Val → Option Nat
  | .int i => if 0 ≤ i.toInt then some i.toInt.toNat else none
  | .uint u => some u.toNat
  | _ => none

theorem natLimit_unsigned {l : Val} {n : Nat} (h : natLimit l = some n) :
    isNumber l = true ∧ ∃ u, asUnsignedNum l = .ok u ∧ u.toNat = n := by
  cases l with
  | int i =>
    simp only [natLimit] at h
    split at h
    · rename_i h0
      cases h
      refine ⟨rfl, _, rfl, ?_⟩
      have := asUnsigned_mod (v := .int i) (a := i.toInt) rfl
      have := i.toInt_lt
      simp only [asUnsigned] at *
      omega
    · cases h
  | uint u => simp only [natLimit, Option.some.injEq] at h; exact ⟨rfl, u, rfl, h⟩
  | _ => simp [natLimit] at h

theorem atLeast_iff {m : List (Bytes × Val)} {k : Bytes} {n : Nat}
    (h : ∀ l, has m k l → ∃ x, natLimit l = some x) :
    AtLeast m k n ↔ ∀ l x, has m k l → natLimit l = some x → x ≤ n := by
  constructor
  · intro a l x hl hx
    obtain ⟨_, u, hu, hn⟩ := a l hl
    obtain ⟨_, u', hu', rfl⟩ := natLimit_unsigned hx
    rw [hu] at hu'; cases hu'; exact hn
  · intro a l hl
    obtain ⟨x, hx⟩ := h l hl
    obtain ⟨h1, u, hu, rfl⟩ := natLimit_unsigned hx
    exact ⟨h1, u, hu, a l _ hl hx⟩

theorem atMost_iff {m : List (Bytes × Val)} {k : Bytes} {n : Nat}
    (h : ∀ l, has m k l → ∃ x, natLimit l = some x) :
    AtMost m k n ↔ ∀ l x, has m k l → natLimit l = some x → n ≤ x := by
  constructor
  · intro a l x hl hx
    obtain ⟨_, u, hu, hn⟩ := a l hl
    obtain ⟨_, u', hu', rfl⟩ := natLimit_unsigned hx
    rw [hu] at hu'; cases hu'; exact hn
  · intro a l hl
    obtain ⟨x, hx⟩ := h l hl
    obtain ⟨h1, u, hu, rfl⟩ := natLimit_unsigned hx
    exact ⟨h1, u, hu, a l _ hl hx⟩

/-- The sizes a pair of limits lets through. -/
def between (m : List (Bytes × Val)) (kmin kmax : Bytes) (n : Nat) : Prop :=
  (∀ l x, has m kmin l → natLimit l = some x → x ≤ n) ∧
  (∀ l x, has m kmax l → natLimit l = some x → n ≤ x)

/-- C36, sizes of strings: a schema whose length limits are natural numbers accepts a string
(shorter than 2^32 bytes) exactly when its length in bytes is within the limits and the schema
without them accepts it. -/
theorem string_length_exact_partial (E : Env) (m : List (Bytes × Val)) (s : Bytes) (hs : s.length < 2 ^ 32)
    (hl : ∀ k l, k ∈ [kMinLength, kMaxLength] → has m k l → ∃ x, natLimit l = some x) :
    alone E (.map m) (.str s) = .accept ↔
      between m kMinLength kMaxLength s.length ∧
      alone E (.map (strip [kMinLength, kMaxLength] m)) (.str s) = .accept := by
  rw [alone_accept, alone_accept, strip_stringLength]
  refine and_congr_left fun _ => ?_
  have e : size (.str s) = s.length := Nat.mod_eq_of_lt hs
  simp only [Val.str.injEq, forall_eq', e]
  rw [atLeast_iff (fun l => hl _ l (by simp)), atMost_iff (fun l => hl _ l (by simp))]
  exact Iff.rfl

/-- C36 and C37, lists: a schema whose item limits are natural numbers and whose `uniqueItems`
is a boolean accepts a list (of fewer than 2^32 items) exactly when the number of items is within
the limits, no two items at different positions are equal if they must be unique, and the schema
without these keywords accepts it. -/
theorem array_limits_exact_partial (E : Env) (m : List (Bytes × Val)) (xs : List Val) (hs : xs.length < 2 ^ 32)
    (hl : ∀ k l, k ∈ [kMinItems, kMaxItems] → has m k l → ∃ x, natLimit l = some x)
    (hu : ∀ u, has m kUniqueItems u → ∃ b, u = .bool b) :
    alone E (.map m) (.list xs) = .accept ↔
      between m kMinItems kMaxItems xs.length ∧
      (has m kUniqueItems (.bool true) → ∀ (i j : Nat) x y, i < j → xs[i]? = some x → xs[j]? = some y →
        veq E.p x y = false) ∧
      alone E (.map (strip [kMinItems, kMaxItems, kUniqueItems] m)) (.list xs) = .accept := by
  rw [alone_accept, alone_accept, strip_array]
  simp only [← and_assoc]
  refine and_congr_left fun _ => ?_
  have e : size (.list xs) = xs.length := Nat.mod_eq_of_lt hs
  simp only [Val.list.injEq, forall_eq', e]
  rw [atLeast_iff (fun l => hl _ l (by simp)), atMost_iff (fun l => hl _ l (by simp)), and_assoc]
  unfold between
  rw [and_assoc]
  refine and_congr_right fun _ => and_congr_right fun _ => ?_
  constructor
  · intro h hx
    rcases h _ hx with h | h
    · cases h
    · exact h.2
  · intro h u hx
    obtain ⟨b, rfl⟩ := hu u hx
    cases b
    · exact Or.inl rfl
    · exact Or.inr ⟨rfl, h hx⟩

/-- C36 and C37, objects: a schema whose property-count limits are natural numbers and whose
`required` is a list of strings accepts an object (of fewer than 2^32 properties) exactly when
the number of properties is within the limits, every required key is present, and the schema
without these keywords accepts it. -/
theorem object_limits_exact_partial (E : Env) (m dm : List (Bytes × Val)) (hs : dm.length < 2 ^ 32)
    (hl : ∀ k l, k ∈ [kMinProperties, kMaxProperties] → has m k l → ∃ x, natLimit l = some x)
    (hr : ∀ r, has m kRequired r → ∃ ks : List Bytes, r = .list (ks.map .str)) :
    alone E (.map m) (.map dm) = .accept ↔
      between m kMinProperties kMaxProperties dm.length ∧
      (∀ ks : List Bytes, has m kRequired (.list (ks.map .str)) → ∀ k ∈ ks, ∃ x, AMap.get dm k = some x) ∧
      alone E (.map (strip [kMinProperties, kMaxProperties, kRequired] m)) (.map dm) = .accept := by
  rw [alone_accept, alone_accept, strip_object]
  simp only [← and_assoc]
  refine and_congr_left fun _ => ?_
  have e : size (.map dm) = dm.length := Nat.mod_eq_of_lt hs
  simp only [Val.map.injEq, forall_eq', e]
  rw [atLeast_iff (fun l => hl _ l (by simp)), atMost_iff (fun l => hl _ l (by simp)), and_assoc]
  unfold between
  rw [and_assoc]
  refine and_congr_right fun _ => and_congr_right fun _ => ?_
  constructor
  · intro h ks hk k hkm
    obtain ⟨ks', e, h'⟩ := h _ hk
    cases e
    obtain ⟨t, x, ht, hx⟩ := h' (.str k) (List.mem_map.mpr ⟨k, hkm, rfl⟩)
    cases ht; exact ⟨x, hx⟩
  · intro h r hx
    obtain ⟨ks, rfl⟩ := hr r hx
    refine ⟨_, rfl, fun k hk => ?_⟩
    obtain ⟨t, ht, rfl⟩ := List.mem_map.mp hk
    obtain ⟨x, hx⟩ := h ks hx t ht
    exact ⟨t, x, rfl, hx⟩

/-- C37, enumerations: a schema with an `enum` list accepts a value exactly when it equals one of
the listed values and the schema without `enum` accepts it. -/
theorem enum_exact (E : Env) (m : List (Bytes × Val)) (d : Val) (vs : List Val) (h : has m kEnum (.list vs)) :
    alone E (.map m) d = .accept ↔
      (∃ v ∈ vs, veq E.p v d = true) ∧ alone E (.map (strip [kEnum] m)) d = .accept := by
  rw [alone_accept, alone_accept, strip_enum]
  refine and_congr_left fun _ => ?_
  constructor
  · intro h'
    obtain ⟨vs', e, h''⟩ := h' _ h
    cases e; exact h''
  · intro h' v hv
    simp only [has] at h hv
    rw [h] at hv; cases hv
    exact ⟨vs, rfl, h'⟩

/-- A schema with all of these keywords, and values on both sides of each. -/
def sampleSizes : List (Bytes × Val) :=
  [(kEnum, .list [.list [.int 1, .int 2], .str [65], .map [([97], .null)]]), (kMaxItems, .int 2),
   (kMinLength, .uint 1), (kRequired, .list [.str [97]]), (kUniqueItems, .bool true)]

example : ∀ k l, k ∈ [kMinItems, kMaxItems] → has sampleSizes k l → ∃ x, natLimit l = some x := by
  intro k l hk hl
  simp only [List.mem_cons, List.not_mem_nil, or_false] at hk
  rcases hk with rfl | rfl
  · cases hl
  · cases hl; exact ⟨2, by decide +kernel⟩
example : ∀ r, has sampleSizes kRequired r → ∃ ks : List Bytes, r = .list (ks.map .str) := by
  intro r h; cases h; exact ⟨[[97]], rfl⟩
example : has sampleSizes kEnum (.list [.list [.int 1, .int 2], .str [65], .map [([97], .null)]]) := rfl
example : alone (envOf .null) (.map sampleSizes) (.list [.uint 1, .int 2]) = .accept ∧
    alone (envOf .null) (.map sampleSizes) (.list [.int 1]) = .reject ∧
    alone (envOf .null) (.map sampleSizes) (.str [65]) = .accept ∧
    alone (envOf .null) (.map sampleSizes) (.map [([97], .null)]) = .accept ∧
    alone (envOf .null) (.map [(kUniqueItems, .bool true)]) (.list [.int 1, .null, .uint 1]) = .reject ∧
    alone (envOf .null) (.map [(kRequired, .list [.str [97]])]) (.map [([98], .null)]) = .reject := by
  decide +kernel

/-- C36 is false of negative limits: with "maxItems": -1 a list of any length is accepted. -/
theorem negative_maximum_false (E : Env) (xs : List Val) :
    alone E (.map [(kMaxItems, .int (-1))]) (.list xs) = .accept := by
  rw [alone_accept]
  have g : ∀ k v, has [(kMaxItems, Val.int (-1))] k v → k = kMaxItems ∧ v = .int (-1) := by
    intro k v h
    simp only [has, AMap.get] at h
    split at h
    · rename_i e; cases h; exact ⟨e.symm, rfl⟩
    · cases h
  have no : ∀ k v, k ≠ kMaxItems → ¬ has [(kMaxItems, Val.int (-1))] k v := fun k v hk h => hk (g k v h).1
  refine ⟨?_, ?_, ?_, ?_, ?_, ?_, ?_, ?_⟩
  · intro r h; exact absurd h (no _ _ (by decide))
  · intro r h; exact absurd h (no _ _ (by decide))
  · intro r h; exact absurd h (no _ _ (by decide))
  · intro h; cases h
  · intro s h; cases h
  · rintro ys h
    refine ⟨?_, ?_, ?_, ?_, ?_⟩
    · intro r h; exact absurd h (no _ _ (by decide))
    · intro l h
      obtain ⟨_, rfl⟩ := g _ _ h
      refine ⟨rfl, 0xffffffffffffffff, rfl, ?_⟩
      have e : UInt64.toNat 0xffffffffffffffff = 2 ^ 64 - 1 := rfl
      rw [e]
      have : size (.list ys) < 2 ^ 32 := Nat.mod_lt _ (by decide)
      omega
    · intro r h; exact absurd h (no _ _ (by decide))
    · intro r h; exact absurd h (no _ _ (by decide))
    · intro r h; exact absurd h (no _ _ (by decide))
  · intro s h; cases h
  · constructor <;> intro l h <;> exact absurd h (no _ _ (by decide))

end Verif.Schema
