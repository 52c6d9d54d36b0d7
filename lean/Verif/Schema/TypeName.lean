import Verif.Schema.Structure
/-!
# C54: the `type` keyword
-/

namespace Verif.Schema

section
variable (E : Env) (sub : Val → Val → Vd) (m : List (Bytes × Val)) (d : Val)

theorem strip_type : Valid E sub m d ↔
    (∀ t, has m kType t → TypeOk E t d) ∧
      Valid E sub (strip [kType] m) d := by
  constructor
  · intro v
    refine ⟨v.type, ?_, ?_, ?_, ?_, ?_, ?_, ?_, ?_⟩
    · intro r h; exact v.ref r (has_strip.mp h).2
    · intro t h; exact v.type t (has_strip.mp h).2
    · intro e h; exact v.enum e (has_strip.mp h).2
    · intro h; exact (same_strip (by decide)).number (v.number h)
    · intro s h; exact (same_strip (by decide)).string (v.string s h)
    · intro s h; exact (same_strip (by decide)).array (v.array s h)
    · intro s h; exact (same_strip (by decide)).object (v.object s h)
    · exact (same_strip (by decide)).combinations v.combinations
  · rintro ⟨hc, v⟩
    refine ⟨?_, hc, ?_, ?_, ?_, ?_, ?_, ?_⟩
    · intro r h; exact v.ref r (has_strip.mpr ⟨by decide, h⟩)
    · intro e h; exact v.enum e (has_strip.mpr ⟨by decide, h⟩)
    · intro h; exact (same_strip (by decide)).symm.number (v.number h)
    · intro s h; exact (same_strip (by decide)).symm.string (v.string s h)
    · intro s h; exact (same_strip (by decide)).symm.array (v.array s h)
    · intro s h; exact (same_strip (by decide)).symm.object (v.object s h)
    · exact (same_strip (by decide)).symm.combinations v.combinations

end

/-- What the seven type names mean.  A number with a fractional part is not an integer; NaN and
the infinities count as integers. -/
inductive Named : Bytes → Val → Prop
  | array {xs} : Named wArray (.list xs)
  | object {m} : Named wObject (.map m)
  | string {s} : Named wString (.str s)
  | boolean {b} : Named wBoolean (.bool b)
  | null : Named wNull .null
  | numberInt {i} : Named wNumber (.int i)
  | numberUint {u} : Named wNumber (.uint u)
  | numberFloat {b} : Named wNumber (.flt b)
  | integerInt {i} : Named wInteger (.int i)
  | integerUint {u} : Named wInteger (.uint u)
  | integerFloat {b} : (∀ n, LD.ofDouble b = .fin n → (2 ^ 1074 : Int) ∣ n) → Named wInteger (.flt b)

def typeNames : List Bytes := [wArray, wObject, wString, wBoolean, wNull, wNumber, wInteger]

theorem integral_float {p : Nat} (hp : 64 ≤ p) (b : UInt64) :
    (ldCompare (ldMod (LD.ofDouble b) (LD.ofInt p 1)) (LD.ofInt p 0) == 0) = true ↔
      ∀ n, LD.ofDouble b = .fin n → (2 ^ 1074 : Int) ∣ n := by
  have h1 : LD.ofInt p 1 = .fin (2 ^ 1074) := by
    rw [LD.ofInt_exact (Nat.lt_of_lt_of_le (by decide : (1 : Int).natAbs < 2 ^ 64) (Nat.pow_le_pow_right (by omega) hp)), Int.one_mul]
  have h0 : LD.ofInt p 0 = .fin 0 := by
    rw [LD.ofInt_exact (Nat.lt_of_lt_of_le (by decide : (0 : Int).natAbs < 2 ^ 64) (Nat.pow_le_pow_right (by omega) hp)), Int.zero_mul]
  rw [h1, h0]
  cases h : LD.ofDouble b with
  | nan => simp [ldMod, ldCompare, LD.lt]
  | inf s => simp [ldMod, ldCompare, LD.lt]
  | fin n =>
    have hne : (2 ^ 1074 : Int) ≠ 0 := by decide +kernel
    simp only [ldMod, if_neg hne, LD.fin.injEq, forall_eq']
    rw [Int.dvd_iff_tmod_eq_zero]
    generalize n.tmod (2 ^ 1074) = r
    simp only [ldCompare, LD.lt, beq_iff_eq]
    constructor
    · intro h
      by_cases h1 : r < 0
      · simp [h1] at h
      · by_cases h2 : 0 < r
        · simp [h1, h2] at h
        · omega
    · rintro rfl; simp

theorem hasType_named (E : Env) (hp : 64 ≤ E.p) (d : Val) (w : Bytes) (hw : w ∈ typeNames) :
    (Named w d → hasType E d (.str w) = some true) ∧ (¬ Named w d → hasType E d (.str w) = some false) := by
  simp only [typeNames, List.mem_cons, List.not_mem_nil, or_false] at hw
  rcases hw with rfl | rfl | rfl | rfl | rfl | rfl | rfl
  · have : hasType E d (.str wArray) = some (d.ty == .list) := rfl
    rw [this]
    exact ⟨fun h => by cases h <;> rfl, fun h => by cases d <;> first | rfl | exact absurd (by constructor) h⟩
  · have : hasType E d (.str wObject) = some (d.ty == .map) := rfl
    rw [this]
    exact ⟨fun h => by cases h <;> rfl, fun h => by cases d <;> first | rfl | exact absurd (by constructor) h⟩
  · have : hasType E d (.str wString) = some (d.ty == .str) := rfl
    rw [this]
    exact ⟨fun h => by cases h <;> rfl, fun h => by cases d <;> first | rfl | exact absurd (by constructor) h⟩
  · have : hasType E d (.str wBoolean) = some (d.ty == .bool) := rfl
    rw [this]
    exact ⟨fun h => by cases h <;> rfl, fun h => by cases d <;> first | rfl | exact absurd (by constructor) h⟩
  · have : hasType E d (.str wNull) = some (d.ty == .null) := rfl
    rw [this]
    exact ⟨fun h => by cases h <;> rfl, fun h => by cases d <;> first | rfl | exact absurd (by constructor) h⟩
  · have : hasType E d (.str wNumber) = some (isNumber d) := rfl
    rw [this]
    exact ⟨fun h => by cases h <;> rfl, fun h => by cases d <;> first | rfl | exact absurd (by constructor) h⟩
  · have : hasType E d (.str wInteger) = some (d.ty == .int || d.ty == .uint ||
        (d.ty == .flt && (numLD E.p d).any fun a => ldCompare (ldMod a (LD.ofInt E.p 1)) (LD.ofInt E.p 0) == 0)) := rfl
    rw [this]
    cases d with
    | flt b =>
      have := integral_float hp b
      constructor
      · intro h
        cases h with
        | integerFloat h =>
          simp only [Val.ty, numLD, Option.any_some, this.mpr h]
          rfl
      · intro h
        have hb : ¬ (ldCompare (ldMod (LD.ofDouble b) (LD.ofInt E.p 1)) (LD.ofInt E.p 0) == 0) = true :=
          fun h' => h (.integerFloat (this.mp h'))
        simp only [Bool.not_eq_true] at hb
        simp only [Val.ty, numLD, Option.any_some, hb]
        rfl
    | int i => exact ⟨fun _ => rfl, fun h => absurd .integerInt h⟩
    | uint i => exact ⟨fun _ => rfl, fun h => absurd .integerUint h⟩
    | _ => exact ⟨fun h => (by cases h), fun _ => rfl⟩

/-- C54: a schema whose `type` is one of the seven names accepts a value exactly when the value
has the named type and the schema without `type` accepts it. -/
theorem type_exact (E : Env) (hp : 64 ≤ E.p) (m : List (Bytes × Val)) (d : Val) (w : Bytes)
    (h : has m kType (.str w)) (hw : w ∈ typeNames) :
    alone E (.map m) d = .accept ↔ Named w d ∧ alone E (.map (strip [kType] m)) d = .accept := by
  rw [alone_accept, alone_accept, strip_type]
  refine and_congr_left fun _ => ?_
  constructor
  · intro h'
    obtain ⟨pre, w', post, e, hpre, ht⟩ := h' _ h
    simp only [Val.ty, reduceCtorEq, if_false, Val.list.injEq] at e
    cases pre with
    | nil =>
      simp only [List.nil_append, List.cons.injEq] at e
      rw [← e.1] at ht
      by_cases hn : Named w d
      · exact hn
      · rw [(hasType_named E hp d w hw).2 hn] at ht; cases ht
    | cons x xs => simp at e
  · intro hn t ht
    simp only [has] at h ht
    rw [h] at ht; cases ht
    exact ⟨[], .str w, [], rfl, by simp, (hasType_named E hp d w hw).1 hn⟩

/-- C54: with a list of names, the value must have one of the named types. -/
theorem type_list_exact (E : Env) (hp : 64 ≤ E.p) (m : List (Bytes × Val)) (d : Val) (ws : List Bytes)
    (h : has m kType (.list (ws.map .str))) (hw : ∀ w ∈ ws, w ∈ typeNames) :
    alone E (.map m) d = .accept ↔ (∃ w ∈ ws, Named w d) ∧ alone E (.map (strip [kType] m)) d = .accept := by
  rw [alone_accept, alone_accept, strip_type]
  refine and_congr_left fun _ => ?_
  have key : (∃ w ∈ ws, Named w d) ↔ TypeOk E (.list (ws.map .str)) d := by
    unfold TypeOk
    simp only [Val.ty, if_true, Val.list.injEq]
    constructor
    · rintro ⟨w, hm, hn⟩
      clear h
      induction ws with
      | nil => cases hm
      | cons x xs ih =>
        by_cases hx : Named x d
        · exact ⟨[], .str x, xs.map .str, rfl, by simp, (hasType_named E hp d x (hw x (by simp))).1 hx⟩
        · have hm' : w ∈ xs := by
            rcases List.mem_cons.mp hm with rfl | h
            · exact absurd hn hx
            · exact h
          obtain ⟨pre, w', post, e, h1, h2⟩ := ih (fun w h => hw w (by simp [h])) hm'
          refine ⟨.str x :: pre, w', post, by simp [e], ?_, h2⟩
          intro y hy
          rcases List.mem_cons.mp hy with rfl | hy
          · exact (hasType_named E hp d x (hw x (by simp))).2 hx
          · exact h1 y hy
    · rintro ⟨pre, w', post, e, h1, h2⟩
      have : w' ∈ ws.map Val.str := by rw [e]; simp
      obtain ⟨w, hm, rfl⟩ := List.mem_map.mp this
      refine ⟨w, hm, ?_⟩
      by_cases hn : Named w d
      · exact hn
      · rw [(hasType_named E hp d w (hw w hm)).2 hn] at h2; cases h2
  rw [key]
  constructor
  · intro h'; exact h' _ h
  · intro h' t ht
    simp only [has] at h ht
    rw [h] at ht; cases ht
    exact h'

/-- {"type": "integer"}: 2.0 is one, 2.5 is not. -/
example : has [(kType, .str wInteger)] kType (.str wInteger) ∧ wInteger ∈ typeNames := ⟨rfl, by decide⟩
example : alone (envOf .null) (.map [(kType, .str wInteger)]) (.flt 0x4000000000000000) = .accept ∧
    alone (envOf .null) (.map [(kType, .str wInteger)]) (.flt 0x4004000000000000) = .reject ∧
    alone (envOf .null) (.map [(kType, .str wInteger)]) (.uint 7) = .accept ∧
    alone (envOf .null) (.map [(kType, .list [.str wNull, .str wString])]) (.str []) = .accept := by decide +kernel

end Verif.Schema
