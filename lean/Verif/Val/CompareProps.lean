import Verif.Val.Compare
import Verif.Blob.Props
/-!
# Comparison and arithmetic: properties C21, C22, C49, C52
-/

namespace Verif

/-! ## The order on `long double` -/

theorem LD.lt_irrefl (a : LD) : LD.lt a a = false := by
  cases a with
  | nan => rfl
  | inf b => cases b <;> rfl
  | fin n => simp [LD.lt]

theorem LD.lt_asymm {a b : LD} (h : LD.lt a b = true) : LD.lt b a = false := by
  cases a <;> cases b <;> simp_all [LD.lt]
  omega

theorem LD.lt_trans {a b c : LD} (h1 : LD.lt a b = true) (h2 : LD.lt b c = true) : LD.lt a c = true := by
  cases a <;> cases b <;> cases c <;> simp_all [LD.lt]
  omega

theorem LD.trichotomy {a b : LD} (ha : a ≠ .nan) (hb : b ≠ .nan) :
    LD.lt a b = true ∨ a = b ∨ LD.lt b a = true := by
  cases a with
  | nan => exact absurd rfl ha
  | inf x => cases b with
    | nan => exact absurd rfl hb
    | inf y => cases x <;> cases y <;> simp [LD.lt]
    | fin y => cases x <;> simp [LD.lt]
  | fin x => cases b with
    | nan => exact absurd rfl hb
    | inf y => cases y <;> simp [LD.lt]
    | fin y => simp only [LD.lt, decide_eq_true_eq, LD.fin.injEq]; omega

theorem ldCompare_eq_zero {a b : LD} : ldCompare a b = 0 ↔ a = .nan ∨ b = .nan ∨ a = b := by
  simp only [ldCompare]
  constructor
  · intro h
    by_cases ha : a = .nan
    · exact .inl ha
    by_cases hb : b = .nan
    · exact .inr (.inl hb)
    rcases LD.trichotomy ha hb with h1 | h1 | h1
    · simp [h1] at h
    · exact .inr (.inr h1)
    · simp [h1, LD.lt_asymm h1] at h
  · rintro (rfl | rfl | rfl)
    · cases b <;> simp [LD.lt]
    · cases a <;> simp [LD.lt]
    · simp [LD.lt_irrefl]

theorem ldCompare_neg (a b : LD) : ldCompare b a = - ldCompare a b := by
  simp only [ldCompare]
  cases h1 : LD.lt a b with
  | true => simp [LD.lt_asymm h1]
  | false => cases h2 : LD.lt b a <;> simp

/-! ## Strings -/

theorem strCompare_spec (a b : Bytes) :
    (strCompare a b = -1 ∧ keyLt a b = true) ∨ (strCompare a b = 0 ∧ a = b) ∨
      (strCompare a b = 1 ∧ keyLt b a = true) := by
  induction a generalizing b with
  | nil =>
    cases b with
    | nil => right; left; simp [strCompare, Blob.memcmp]
    | cons y ys => left; simp [strCompare, Blob.memcmp, keyLt]
  | cons x xs ih =>
    cases b with
    | nil => right; right; simp [strCompare, Blob.memcmp, keyLt]
    | cons y ys =>
      have hmin : min (x :: xs).length (y :: ys).length = min xs.length ys.length + 1 := by
        simp
      simp only [strCompare, hmin, List.take_succ_cons, Blob.memcmp]
      by_cases h1 : x < y
      · left; simp only [h1, if_true]
        simp [keyLt, UInt8.lt_iff_toNat_lt.1 h1]
      · by_cases h2 : y < x
        · right; right; simp only [h1, h2, if_true, if_false]
          simp [keyLt, UInt8.lt_iff_toNat_lt.1 h2]
        · have hxy : x.toNat = y.toNat := by
            rw [UInt8.lt_iff_toNat_lt] at h1 h2; omega
          have hxy' : x = y := UInt8.toNat_inj.1 hxy
          subst hxy'
          simp only [h1, if_false, List.length_cons, Nat.add_lt_add_iff_right]
          have := ih ys
          simp only [strCompare] at this
          simpa [keyLt] using this

theorem strCompare_eq_zero {a b : Bytes} : strCompare a b = 0 ↔ a = b := by
  constructor
  · intro h
    rcases strCompare_spec a b with ⟨h1, _⟩ | ⟨_, h1⟩ | ⟨h1, _⟩
    · rw [h] at h1; cases h1
    · exact h1
    · rw [h] at h1; cases h1
  · rintro rfl
    rcases strCompare_spec a a with ⟨_, h1⟩ | ⟨h1, _⟩ | ⟨_, h1⟩
    · rw [keyLt_irrefl] at h1; cases h1
    · exact h1
    · rw [keyLt_irrefl] at h1; cases h1

/-! ## C21: equality -/

theorem blob_ordSign_zero {a b : List Bytes} :
    ordSign (Blob.compare a b) = 0 ↔ a.flatten <+: b.flatten ∨ b.flatten <+: a.flatten := by
  rw [← Blob.compare_eq_iff_prefix]
  cases Blob.compare a b <;> simp [ordSign]

mutual
/-- C21: `==` is reflexive, also on NaN. -/
theorem cmp_refl (p : Nat) : (v : Val) → cmp p v v = 0
  | .null => by simp [cmp]
  | .bool _ => by simp [cmp]
  | .int i => by simp [cmp, numLD, ldCompare_eq_zero]
  | .uint u => by simp [cmp, numLD, ldCompare_eq_zero]
  | .flt b => by simp [cmp, numLD, ldCompare_eq_zero]
  | .str s => by simp [cmp, strCompare_eq_zero]
  | .list xs => by simp [cmp, eqList_refl p xs]
  | .map m => by simp [cmp, eqMap_refl p m]
  | .blob s => by rw [cmp, blob_ordSign_zero]; exact .inl (List.prefix_refl _)
theorem eqList_refl (p : Nat) : (xs : List Val) → eqList p xs xs = true
  | [] => by simp [eqList]
  | x :: xs => by simp [eqList, cmp_refl p x, eqList_refl p xs]
theorem eqMap_refl (p : Nat) : (m : List (Bytes × Val)) → eqMap p m m = true
  | [] => by simp [eqMap]
  | x :: xs => by simp [eqMap, cmp_refl p x.2, eqMap_refl p xs]
end

theorem veq_refl (p : Nat) (v : Val) : veq p v v = true := by simp [veq, cmp_refl]

/-- The cases in which two values compare equal. -/
inductive EqCases (p : Nat) : Val → Val → Prop
  | null : EqCases p .null .null
  | bool (b) : EqCases p (.bool b) (.bool b)
  | str (s) : EqCases p (.str s) (.str s)
  | list {a b} : eqList p a b = true → EqCases p (.list a) (.list b)
  | map {a b} : eqMap p a b = true → EqCases p (.map a) (.map b)
  | blob {a b} : ordSign (Blob.compare a b) = 0 → EqCases p (.blob a) (.blob b)
  | num {v w a b} : numLD p v = some a → numLD p w = some b → ldCompare a b = 0 → EqCases p v w

theorem cmp_zero_cases {p : Nat} {v w : Val} (h : cmp p v w = 0) : EqCases p v w := by
  cases v <;> cases w <;> simp only [cmp, numLD] at h <;>
    first
    | exact absurd h (by decide)
    | exact .null
    | exact .num rfl rfl h
    | exact .blob h
    | skip
  · split at h
    · rename_i e; subst e; exact .bool _
    · cases h
  · rw [strCompare_eq_zero] at h; subst h; exact .str _
  · split at h
    · rename_i e; exact .list e
    · cases h
  · split at h
    · rename_i e; exact .map e
    · cases h

theorem EqCases.cmp {p : Nat} {v w : Val} (h : EqCases p v w) : Verif.cmp p v w = 0 := by
  cases h with
  | null => simp [Verif.cmp]
  | bool b => simp [Verif.cmp]
  | str s => simp [Verif.cmp, strCompare_eq_zero]
  | list h => simp [Verif.cmp, h]
  | map h => simp [Verif.cmp, h]
  | blob h => simp [Verif.cmp, h]
  | num h1 h2 h3 => cases v <;> cases w <;> simp_all [numLD, Verif.cmp]

mutual
/-- C21: `==` is symmetric on all values. -/
theorem cmp_symm (p : Nat) : (v w : Val) → cmp p v w = 0 → cmp p w v = 0
  | v, w, h => by
    cases cmp_zero_cases h with
    | null => exact h
    | bool b => exact h
    | str s => exact h
    | list h' => exact (EqCases.list (eqList_symm p _ _ h')).cmp
    | map h' => exact (EqCases.map (eqMap_symm p _ _ h')).cmp
    | blob h' =>
      apply (EqCases.blob _).cmp
      rw [blob_ordSign_zero] at h' ⊢
      exact h'.symm
    | num h1 h2 h3 =>
      refine (EqCases.num h2 h1 ?_).cmp
      rw [ldCompare_neg, h3]; rfl
theorem eqList_symm (p : Nat) : (a b : List Val) → eqList p a b = true → eqList p b a = true
  | [], [], h => h
  | [], _ :: _, h => by simp [eqList] at h
  | _ :: _, [], h => by simp [eqList] at h
  | x :: xs, y :: ys, h => by
    simp only [eqList, Bool.and_eq_true, beq_iff_eq] at h ⊢
    exact ⟨cmp_symm p x y h.1, eqList_symm p xs ys h.2⟩
theorem eqMap_symm (p : Nat) : (a b : List (Bytes × Val)) → eqMap p a b = true → eqMap p b a = true
  | [], [], h => h
  | [], _ :: _, h => by simp [eqMap] at h
  | _ :: _, [], h => by simp [eqMap] at h
  | (k, x) :: xs, (l, y) :: ys, h => by
    simp only [eqMap, Bool.and_eq_true, beq_iff_eq] at h ⊢
    exact ⟨⟨h.1.1.symm, cmp_symm p x y h.1.2⟩, eqMap_symm p xs ys h.2⟩
end

theorem veq_symm (p : Nat) (v w : Val) (h : veq p v w = true) : veq p w v = true := by
  simp only [veq, beq_iff_eq] at h ⊢; exact cmp_symm p v w h

mutual
/-- The value contains no NaN and no blob. -/
def Val.NoNaNBlob : Val → Prop
  | .flt b => LD.ofDouble b ≠ .nan
  | .blob _ => False
  | .list xs => NoNaNBlobList xs
  | .map m => NoNaNBlobMap m
  | _ => True
def NoNaNBlobList : List Val → Prop
  | [] => True
  | x :: xs => x.NoNaNBlob ∧ NoNaNBlobList xs
def NoNaNBlobMap : List (Bytes × Val) → Prop
  | [] => True
  | x :: xs => x.2.NoNaNBlob ∧ NoNaNBlobMap xs
end

theorem numLD_ne_nan {p : Nat} {v : Val} {a : LD} (hv : v.NoNaNBlob) (h : numLD p v = some a) :
    a ≠ .nan := by
  cases v <;> simp [numLD] at h <;> subst h <;> first | (simp [LD.ofInt]; done) | skip
  rw [Val.NoNaNBlob] at hv; exact hv

mutual
theorem cmp_trans (p : Nat) : (v w u : Val) → w.NoNaNBlob → cmp p v w = 0 → cmp p w u = 0 → cmp p v u = 0
  | v, w, u, hw, h1, h2 => by
    cases cmp_zero_cases h1 with
    | null => exact h2
    | bool b => exact h2
    | str s => exact h2
    | blob h => rw [Val.NoNaNBlob] at hw; exact hw.elim
    | @list a b h =>
      cases cmp_zero_cases h2 with
      | list h' =>
        rw [Val.NoNaNBlob] at hw
        exact (EqCases.list (eqList_trans p _ _ _ hw h h')).cmp
      | num h3 => simp [numLD] at h3
    | @map a b h =>
      cases cmp_zero_cases h2 with
      | map h' =>
        rw [Val.NoNaNBlob] at hw
        exact (EqCases.map (eqMap_trans p _ _ _ hw h h')).cmp
      | num h3 => simp [numLD] at h3
    | num h3 h4 h5 =>
      have hn := numLD_ne_nan hw h4
      cases cmp_zero_cases h2 with
      | num h6 h7 h8 =>
        rw [h4] at h6; cases h6
        refine (EqCases.num h3 h7 ?_).cmp
        rw [ldCompare_eq_zero] at h5 h8 ⊢
        rcases h5 with h | h | rfl
        · exact .inl h
        · exact absurd h hn
        · rcases h8 with h | h | h
          · exact absurd h hn
          · exact .inr (.inl h)
          · exact .inr (.inr h)
      | _ => simp [numLD] at h4
termination_by v => sizeOf v
theorem eqList_trans (p : Nat) : (a b c : List Val) → NoNaNBlobList b → eqList p a b = true →
    eqList p b c = true → eqList p a c = true
  | [], [], _, _, _, h2 => h2
  | [], _ :: _, _, _, h, _ => by simp [eqList] at h
  | _ :: _, [], _, _, h, _ => by simp [eqList] at h
  | _ :: _, _ :: _, [], _, _, h => by simp [eqList] at h
  | x :: xs, y :: ys, z :: zs, hn, h1, h2 => by
    simp only [eqList, Bool.and_eq_true, beq_iff_eq, NoNaNBlobList] at hn h1 h2 ⊢
    exact ⟨cmp_trans p x y z hn.1 h1.1 h2.1, eqList_trans p xs ys zs hn.2 h1.2 h2.2⟩
termination_by a => sizeOf a
theorem eqMap_trans (p : Nat) : (a b c : List (Bytes × Val)) → NoNaNBlobMap b → eqMap p a b = true →
    eqMap p b c = true → eqMap p a c = true
  | [], [], _, _, _, h2 => h2
  | [], _ :: _, _, _, h, _ => by simp [eqMap] at h
  | _ :: _, [], _, _, h, _ => by simp [eqMap] at h
  | _ :: _, _ :: _, [], _, _, h => by simp [eqMap] at h
  | (_, x) :: xs, (_, y) :: ys, (_, z) :: zs, hn, h1, h2 => by
    simp only [eqMap, Bool.and_eq_true, beq_iff_eq, NoNaNBlobMap] at hn h1 h2 ⊢
    exact ⟨⟨h1.1.1.trans h2.1.1, cmp_trans p x y z hn.1 h1.1.2 h2.1.2⟩,
      eqMap_trans p xs ys zs hn.2 h1.2 h2.2⟩
termination_by a => sizeOf a
end

/-- C21: `==` is transitive when the middle value contains no NaN and no blob. -/
theorem veq_trans_partial (p : Nat) (v w u : Val) (hw : w.NoNaNBlob) (h1 : veq p v w = true)
    (h2 : veq p w u = true) : veq p v u = true := by
  simp only [veq, beq_iff_eq] at *
  exact cmp_trans p v w u hw h1 h2

/-- C21 is false with blobs: a blob equals each of its prefixes, so `==` is not transitive. -/
theorem veq_trans_blob_false (p : Nat) :
    veq p (.blob [[1, 2]]) (.blob [[1]]) = true ∧ veq p (.blob [[1]]) (.blob [[1, 3]]) = true ∧
      veq p (.blob [[1, 2]]) (.blob [[1, 3]]) = false := by
  have h : ∀ a b : List Bytes, veq p (.blob a) (.blob b) =
      (ordSign (Blob.firstDiff a.flatten b.flatten) == 0) := by
    intro a b; rw [veq, cmp, Blob.compare_firstDiff]
  rw [h, h, h]; decide

/-- NaN compares equal to every number. -/
theorem veq_nan_false :
    veq 64 (.flt 0x7FF8000000000000) (.int 1) = true ∧
      veq 64 (.flt 0x7FF8000000000000) (.int 2) = true ∧ veq 64 (.int 1) (.int 2) = false := by
  decide +kernel

mutual
/-- C21: a deep copy compares equal to its original. -/
theorem cmp_deepCopy (p : Nat) : (v : Val) → cmp p v (deepCopy v) = 0
  | .list xs => by simp [cmp, deepCopy, eqList_deepCopy p xs]
  | .map m => by simp [cmp, deepCopy, eqMap_deepCopy p m]
  | .blob s => by
    rw [deepCopy, cmp, blob_ordSign_zero]; left; simp
  | .null => cmp_refl p _
  | .bool _ => by simp only [deepCopy]; exact cmp_refl p _
  | .int _ => by simp only [deepCopy]; exact cmp_refl p _
  | .uint _ => by simp only [deepCopy]; exact cmp_refl p _
  | .flt _ => by simp only [deepCopy]; exact cmp_refl p _
  | .str _ => by simp only [deepCopy]; exact cmp_refl p _
theorem eqList_deepCopy (p : Nat) : (xs : List Val) → eqList p xs (deepCopyList xs) = true
  | [] => by simp [eqList, deepCopyList]
  | x :: xs => by simp [eqList, deepCopyList, cmp_deepCopy p x, eqList_deepCopy p xs]
theorem eqMap_deepCopy (p : Nat) : (m : List (Bytes × Val)) → eqMap p m (deepCopyMap m) = true
  | [] => by simp [eqMap, deepCopyMap]
  | x :: xs => by simp [eqMap, deepCopyMap, cmp_deepCopy p x.2, eqMap_deepCopy p xs]
end

theorem veq_deepCopy (p : Nat) (v : Val) : veq p v (deepCopy v) = true := by
  simp [veq, cmp_deepCopy]

example : (Val.list [.int 3, .flt 0x4008000000000000, .map [([97], .str [98])]]).NoNaNBlob ∧
    veq 64 (.list [.int 3]) (.list [.flt 0x4008000000000000]) = true := by
  constructor
  · simp [Val.NoNaNBlob, NoNaNBlobList, NoNaNBlobMap]; decide +kernel
  · decide +kernel

/-! ## C22: integers compare by value -/

theorem roundNat_small {p n : Nat} (h : n < 2 ^ p) : roundNat p n = n := by
  simp only [roundNat]
  rw [if_pos]
  split
  · omega
  · rename_i h0
    have := (Nat.log2_lt h0).2 h
    omega

theorem LD.ofInt_exact {p : Nat} {i : Int} (h : i.natAbs < 2 ^ p) :
    LD.ofInt p i = .fin (i * 2 ^ 1074) := by
  simp only [LD.ofInt, roundNat_small h]
  congr 2
  split <;> omega

theorem ldCompare_fin (a b : Int) : ldCompare (.fin (a * 2 ^ 1074)) (.fin (b * 2 ^ 1074)) =
    if a < b then -1 else if b < a then 1 else 0 := by
  have : ∀ x y : Int, x * 2 ^ 1074 < y * 2 ^ 1074 ↔ x < y := by
    intro x y
    have hp : (0 : Int) < 2 ^ 1074 := Int.pow_pos (by decide)
    constructor
    · intro h; exact Int.lt_of_mul_lt_mul_right h (Int.le_of_lt hp)
    · intro h; exact Int.mul_lt_mul_of_pos_right h hp
  simp only [ldCompare, LD.lt, this, decide_eq_true_eq]

/-- The mathematical value of an integer. -/
def intVal : Val → Option Int
  | .int i => some i.toInt
  | .uint u => some u.toNat
  | _ => none

/-- C22: with a 64-bit significand (or wider), comparing two integers of either type orders
them by their mathematical values. -/
theorem int_compare_by_value {p : Nat} (hp : 64 ≤ p) {v w : Val} {a b : Int}
    (hv : intVal v = some a) (hw : intVal w = some b) :
    cmp p v w = if a < b then -1 else if b < a then 1 else 0 := by
  have big : ∀ n : Nat, n < 2 ^ 64 → n < 2 ^ p := fun n h =>
    Nat.lt_of_lt_of_le h (Nat.pow_le_pow_right (by omega) hp)
  have hi : ∀ (v : Val) (a : Int), intVal v = some a → numLD p v = some (.fin (a * 2 ^ 1074)) := by
    intro v a h
    cases v <;> simp [intVal] at h <;> subst h
    · rename_i i
      have h1 := i.toInt_lt
      have h2 := i.le_toInt
      simp only [numLD]; rw [LD.ofInt_exact (big _ (by omega))]
    · rename_i u
      have := u.toNat_lt
      simp only [numLD]; rw [LD.ofInt_exact (big _ (by omega))]
  have h1 := hi v a hv
  have h2 := hi w b hw
  rw [← ldCompare_fin]
  cases v <;> simp [intVal] at hv <;> cases w <;> simp [intVal] at hw <;> simp [cmp, h1, h2]

/-- C22 depends on the platform: where `long double` has a 53-bit significand, different
integers compare equal. -/
theorem int_compare_53_false : veq 53 (.int 0x20000000000000) (.uint 0x20000000000001) = true := by
  decide +kernel

example : cmp 64 (.int (-1)) (.uint 0xFFFFFFFFFFFFFFFF) = -1 ∧
    cmp 64 (.uint 0xFFFFFFFFFFFFFFFF) (.int 0x7FFFFFFFFFFFFFFF) = 1 := by decide +kernel

/-! ## C52: ordering -/

/-- C52: on two numbers without NaN, or two strings, exactly one of `<`, `==`, `>` holds, and
exchanging the operands reverses it. -/
theorem compare_antisymm_partial (p : Nat) (v w : Val)
    (h : (∃ a b, numLD p v = some a ∧ numLD p w = some b) ∨ (∃ s t, v = .str s ∧ w = .str t)) :
    cmp p w v = - cmp p v w := by
  rcases h with ⟨a, b, h1, h2⟩ | ⟨s, t, rfl, rfl⟩
  · have e1 : cmp p v w = ldCompare a b := by cases v <;> cases w <;> simp_all [numLD, cmp]
    have e2 : cmp p w v = ldCompare b a := by cases v <;> cases w <;> simp_all [numLD, cmp]
    rw [e1, e2, ldCompare_neg]
  · simp only [cmp]
    rcases strCompare_spec s t with ⟨h1, h2⟩ | ⟨h1, rfl⟩ | ⟨h1, h2⟩
    · rcases strCompare_spec t s with ⟨h3, h4⟩ | ⟨h3, h4⟩ | ⟨h3, h4⟩
      · rw [keyLt_asymm h2] at h4; cases h4
      · subst h4; rw [keyLt_irrefl] at h2; cases h2
      · rw [h1, h3]; rfl
    · rw [h1]; rfl
    · rcases strCompare_spec t s with ⟨h3, h4⟩ | ⟨h3, h4⟩ | ⟨h3, h4⟩
      · rw [h1, h3]
      · subst h4; rw [keyLt_irrefl] at h2; cases h2
      · rw [keyLt_asymm h2] at h4; cases h4

/-- C52: `<` is transitive on numbers, and on strings. -/
theorem compare_lt_trans_partial (p : Nat) (u v w : Val)
    (h : (∃ a b c, numLD p u = some a ∧ numLD p v = some b ∧ numLD p w = some c) ∨
      (∃ r s t, u = .str r ∧ v = .str s ∧ w = .str t))
    (h1 : cmp p u v < 0) (h2 : cmp p v w < 0) : cmp p u w < 0 := by
  rcases h with ⟨a, b, c, ha, hb, hc⟩ | ⟨r, s, t, rfl, rfl, rfl⟩
  · have e1 : cmp p u v = ldCompare a b := by cases u <;> cases v <;> simp_all [numLD, cmp]
    have e2 : cmp p v w = ldCompare b c := by cases v <;> cases w <;> simp_all [numLD, cmp]
    have e3 : cmp p u w = ldCompare a c := by cases u <;> cases w <;> simp_all [numLD, cmp]
    have key : ∀ x y, ldCompare x y < 0 → LD.lt x y = true := by
      intro x y h
      simp only [ldCompare] at h
      split at h
      · assumption
      · split at h <;> omega
    rw [e1] at h1; rw [e2] at h2; rw [e3, ldCompare, if_pos (LD.lt_trans (key _ _ h1) (key _ _ h2))]
    decide
  · have key : ∀ x y, strCompare x y < 0 → keyLt x y = true := by
      intro x y h
      rcases strCompare_spec x y with ⟨h1, h2⟩ | ⟨h1, h2⟩ | ⟨h1, h2⟩
      · exact h2
      · rw [h1] at h; omega
      · rw [h1] at h; omega
    simp only [cmp] at *
    have := keyLt_trans (key _ _ h1) (key _ _ h2)
    rcases strCompare_spec r t with ⟨h1, h2⟩ | ⟨h1, rfl⟩ | ⟨h1, h2⟩
    · rw [h1]; decide
    · rw [keyLt_irrefl] at this; cases this
    · rw [keyLt_asymm h2] at this; cases this

/-- C52 is false for other values: two different lists are each greater than the other, and so
are values of different kinds. -/
theorem compare_antisymm_false :
    (cmp 64 (.list [.int 1]) (.list [.int 2]) = 1 ∧ cmp 64 (.list [.int 2]) (.list [.int 1]) = 1) ∧
    (cmp 64 (.int 1) (.str [97]) = 1 ∧ cmp 64 (.str [97]) (.int 1) = 1) := by
  decide +kernel

/-! ## C49: integer arithmetic -/

/-- The value an integer operation should give, as a value of the type the operands call for:
`Unsigned` as soon as one operand is. -/
def resultOf (v w : Val) (r : Int) (x : Val) : Prop :=
  (v.ty = .int ∧ w.ty = .int ∧ ∃ i : Int64, x = .int i ∧ i.toInt = r) ∨
  ((v.ty = .uint ∨ w.ty = .uint) ∧ ∃ u : UInt64, x = .uint u ∧ (u.toNat : Int) = r)

/-- The result is representable in the type the operands call for. -/
def representable (v w : Val) (r : Int) : Prop :=
  (v.ty = .int ∧ w.ty = .int ∧ -2 ^ 63 ≤ r ∧ r < 2 ^ 63) ∨
  ((v.ty = .uint ∨ w.ty = .uint) ∧ 0 ≤ r ∧ r < 2 ^ 64)

theorem int64_ofInt {r : Int} (h1 : -2 ^ 63 ≤ r) (h2 : r < 2 ^ 63) : (Int64.ofInt r).toInt = r := by
  apply Int64.toInt_ofInt_of_le <;> first | exact h1 | exact h2

theorem tdiv_bound {a b : Int} (h1 : -2 ^ 63 ≤ a) (h2 : a < 2 ^ 63) (hb : b ≠ 0)
    (hne : ¬ (a = -2 ^ 63 ∧ b = -1)) : -2 ^ 63 ≤ a.tdiv b ∧ a.tdiv b < 2 ^ 63 := by
  by_cases h3 : b = 1
  · subst h3; rw [Int.tdiv_one]; exact ⟨h1, h2⟩
  by_cases h4 : b = -1
  · subst h4
    have : a.tdiv (-1) = -a := by rw [Int.tdiv_neg, Int.tdiv_one]
    rw [this]; omega
  have hn : (a.tdiv b).natAbs = a.natAbs / b.natAbs := Int.natAbs_tdiv a b
  have h5 : a.natAbs / b.natAbs ≤ a.natAbs / 2 := Nat.div_le_div_left (by omega) (by omega)
  omega

theorem tmod_bound {a b : Int} (h1 : -2 ^ 63 ≤ a) (h2 : a < 2 ^ 63) :
    -2 ^ 63 ≤ a.tmod b ∧ a.tmod b < 2 ^ 63 := by
  have hn : (a.tmod b).natAbs = a.natAbs % b.natAbs := Int.natAbs_tmod a b
  have hl : a.natAbs % b.natAbs ≤ a.natAbs := Nat.mod_le _ _
  rcases Int.le_total 0 a with h | h
  · have := Int.tmod_nonneg b h; omega
  · have : (-a).tmod b = -(a.tmod b) := Int.neg_tmod a b
    have h3 := Int.tmod_nonneg b (show 0 ≤ -a by omega)
    omega

theorem asUnsigned_mod {v : Val} {a : Int} (h : intVal v = some a) :
    ((asUnsigned v).toNat : Int) = a % 2 ^ 64 := by
  cases v <;> simp [intVal] at h <;> subst h
  · rename_i i
    simp only [asUnsigned]
    have h1 : i.toUInt64.toBitVec.toInt = i.toInt := rfl
    have h2 : (i.toUInt64.toNat : Int) = i.toUInt64.toBitVec.toNat := rfl
    have h3 : ((i.toUInt64.toBitVec.toNat : Int).bmod (2 ^ 64)) % ((2 ^ 64 : Nat) : Int) =
        (i.toUInt64.toBitVec.toNat : Int) % ((2 ^ 64 : Nat) : Int) := Int.bmod_emod
    have h4 : ((2 ^ 64 : Nat) : Int) = 2 ^ 64 := by norm_cast
    rw [h4] at h3
    rw [h2, ← h1, BitVec.toInt_eq_toNat_bmod, h3]
    have := i.toUInt64.toBitVec.isLt
    omega
  · rename_i u
    have := u.toNat_lt
    simp only [asUnsigned]; omega

/-- The unsigned operations compute modulo 2^64 on the operands taken modulo 2^64. -/
theorem unsigned_ring (op : Op) (hop : op = .add ∨ op = .sub ∨ op = .mul) (x y : UInt64) (a b : Int)
    (hx : (x.toNat : Int) = a % 2 ^ 64) (hy : (y.toNat : Int) = b % 2 ^ 64) :
    ∃ u, op.unsigned x y = .ok u ∧ (u.toNat : Int) = op.exact a b % 2 ^ 64 := by
  rcases hop with rfl | rfl | rfl
  · refine ⟨_, rfl, ?_⟩
    rw [UInt64.toNat_add, Op.exact]; omega
  · refine ⟨_, rfl, ?_⟩
    have := x.toNat_lt; have := y.toNat_lt
    rw [UInt64.toNat_sub, Op.exact]; omega
  · refine ⟨_, rfl, ?_⟩
    rw [UInt64.toNat_mul, Op.exact, Int.mul_emod, ← hx, ← hy]; rfl

/-- C49: an integer operation gives the mathematically exact result, as a value of the type the
operands call for, whenever that result is representable in the type.  Excluded: division and
remainder by zero (undefined), the remainder of the smallest Integer by -1 (undefined), and
division or remainder with an Unsigned when an operand is negative (wrong, see below). -/
theorem integer_arithmetic_exact_partial (fl : Op → Val → Val → Val) (op : Op) {v w : Val}
    {a b : Int} (hv : intVal v = some a) (hw : intVal w = some b)
    (hr : representable v w (op.exact a b))
    (hz : op = .div ∨ op = .rem → b ≠ 0)
    (hm : op = .rem → v.ty = .int → w.ty = .int → ¬ (a = -2 ^ 63 ∧ b = -1))
    (hn : op = .div ∨ op = .rem → v.ty = .uint ∨ w.ty = .uint → 0 ≤ a ∧ 0 ≤ b) :
    ∃ x, arith fl op v w = .ok x ∧ resultOf v w (op.exact a b) x := by
  -- the two unsigned cases
  have uns : (v.ty = .uint ∨ w.ty = .uint) →
      ∃ u, op.unsigned (asUnsigned v) (asUnsigned w) = .ok u ∧ (u.toNat : Int) = op.exact a b := by
    intro hu
    have hr' : 0 ≤ op.exact a b ∧ op.exact a b < 2 ^ 64 := by
      rcases hr with ⟨h1, h2, _⟩ | ⟨_, h⟩
      · rw [h1, h2] at hu; rcases hu with h | h <;> cases h
      · exact h
    have hx := asUnsigned_mod hv
    have hy := asUnsigned_mod hw
    by_cases hop : op = .add ∨ op = .sub ∨ op = .mul
    · obtain ⟨u, h1, h2⟩ := unsigned_ring op hop _ _ a b hx hy
      exact ⟨u, h1, by rw [h2]; omega⟩
    · have hop' : op = .div ∨ op = .rem := by cases op <;> simp_all
      obtain ⟨ha, hb⟩ := hn hop' hu
      have hb0 := hz hop'
      have bound : ∀ (z : Val) (c : Int), intVal z = some c → c < 2 ^ 64 := by
        intro z c hc
        cases z <;> simp [intVal] at hc <;> subst hc
        · rename_i i; have := i.toInt_lt; omega
        · rename_i i; have := i.toNat_lt; omega
      have hba := bound v a hv
      have hbb := bound w b hw
      have hxa : ((asUnsigned v).toNat : Int) = a := by rw [hx]; omega
      have hyb : ((asUnsigned w).toNat : Int) = b := by rw [hy]; omega
      have hne : asUnsigned w ≠ 0 := by
        intro h; rw [h] at hyb; apply hb0; rw [← hyb]; rfl
      rcases hop' with rfl | rfl
      · refine ⟨asUnsigned v / asUnsigned w, by simp only [Op.unsigned, if_neg hne], ?_⟩
        rw [UInt64.toNat_div, Op.exact, ← hxa, ← hyb, Int.natCast_ediv]
        rw [Int.tdiv_eq_ediv_of_nonneg (by omega)]
      · refine ⟨asUnsigned v % asUnsigned w, by simp only [Op.unsigned, if_neg hne], ?_⟩
        rw [UInt64.toNat_mod, Op.exact, ← hxa, ← hyb, Int.natCast_emod]
        rw [Int.tmod_eq_emod_of_nonneg (by omega)]
  have hty : ∀ (z : Val) (c : Int), intVal z = some c → (∃ i, z = .int i ∧ c = i.toInt) ∨ z.ty = .uint := by
    intro z c hc
    cases z <;> simp [intVal] at hc
    · exact .inl ⟨_, rfl, hc.symm⟩
    · exact .inr rfl
  rcases hty v a hv with ⟨i, rfl, rfl⟩ | hvu
  · rcases hty w b hw with ⟨j, rfl, rfl⟩ | hwu
    · -- both Integer
      have hr' : -2 ^ 63 ≤ op.exact i.toInt j.toInt ∧ op.exact i.toInt j.toInt < 2 ^ 63 := by
        rcases hr with ⟨_, _, h⟩ | ⟨h, _⟩
        · exact h
        · rcases h with h | h <;> cases h
      have hsig : op.signed i j = .ok (Int64.ofInt (op.exact i.toInt j.toInt)) := by
        have hj : j = 0 → j.toInt = 0 := by rintro rfl; rfl
        cases op
        case div =>
          simp only [Op.signed]
          rw [if_neg (fun h => hz (.inl rfl) (hj h)), if_neg]
          rintro ⟨h1, h2⟩
          simp only [Op.exact, h1, h2] at hr'
          exact absurd hr'.2 (by decide)
        case rem =>
          simp only [Op.signed]
          rw [if_neg (fun h => hz (.inr rfl) (hj h)), if_neg (hm rfl rfl rfl)]
        all_goals
          simp only [Op.signed]
          rw [if_neg (by omega)]
      refine ⟨.int (Int64.ofInt (op.exact i.toInt j.toInt)), ?_, .inl ⟨rfl, rfl, _, rfl, int64_ofInt hr'.1 hr'.2⟩⟩
      simp only [arith, Val.ty, hsig, Out.map_ok]
    · obtain ⟨u, h1, h2⟩ := uns (.inr hwu)
      refine ⟨.uint u, ?_, .inr ⟨.inr hwu, u, rfl, h2⟩⟩
      simp only [arith, hwu]
      simp only [Val.ty, h1, Out.map_ok]
  · obtain ⟨u, h1, h2⟩ := uns (.inl hvu)
    refine ⟨.uint u, ?_, .inr ⟨.inl hvu, u, rfl, h2⟩⟩
    rcases hty w b hw with ⟨j, rfl, rfl⟩ | hwu
    · simp only [arith, hvu]; simp only [Val.ty, h1, Out.map_ok]
    · simp only [arith, hvu, hwu, h1, Out.map_ok]

/-- C49 is false with an Unsigned and a negative Integer: -1 / 2 is 0 but 2^63 - 1 is computed;
-3 % 3 is 0 but 1 is computed.  And the remainder of the smallest Integer by -1, which is 0, is
undefined behaviour. -/
theorem integer_arithmetic_exact_false (fl : Op → Val → Val → Val) :
    (Op.div.exact (-1) 2 = 0 ∧ arith fl .div (.int (-1)) (.uint 2) = .ok (.uint 0x7FFFFFFFFFFFFFFF)) ∧
    (Op.rem.exact (-3) 3 = 0 ∧ arith fl .rem (.int (-3)) (.uint 3) = .ok (.uint 1)) ∧
    (Op.rem.exact (-2 ^ 63) (-1) = 0 ∧ arith fl .rem (.int (-0x8000000000000000)) (.int (-1)) = .ub) := by
  refine ⟨⟨by decide, by rfl⟩, ⟨by decide, by rfl⟩, ⟨by decide, by rfl⟩⟩

/-- C49: operations on two integers never throw; the cases of undefined behaviour are exactly
division or remainder by zero, and an Integer result out of range (where the remainder by -1
counts as the division by -1 does). -/
theorem integer_arithmetic_defined (fl : Op → Val → Val → Val) (op : Op) {v w : Val} {a b : Int}
    (hv : intVal v = some a) (hw : intVal w = some b) :
    (∀ er, arith fl op v w ≠ .throw er) ∧
    (arith fl op v w = .ub ↔
      ((op = .div ∨ op = .rem) ∧ b = 0) ∨
      (v.ty = .int ∧ w.ty = .int ∧
        (if op = .div ∨ op = .rem then a = -2 ^ 63 ∧ b = -1
         else op.exact a b < -2 ^ 63 ∨ 2 ^ 63 ≤ op.exact a b))) := by
  have hu : ∀ x y : UInt64, (∀ er, op.unsigned x y ≠ .throw er) ∧
      (op.unsigned x y = .ub ↔ (op = .div ∨ op = .rem) ∧ y = 0) := by
    intro x y
    cases op <;> simp [Op.unsigned] <;> split <;> simp_all
  have hz : ∀ (z : Val) (c : Int), intVal z = some c → (asUnsigned z = 0 ↔ c = 0) := by
    intro z c hc
    have h1 := asUnsigned_mod hc
    have h0 : asUnsigned z = 0 ↔ (asUnsigned z).toNat = 0 := by
      rw [← UInt64.toNat_inj]; rfl
    rw [h0]
    have hb : -2 ^ 63 ≤ c ∧ c < 2 ^ 64 := by
      cases z <;> simp [intVal] at hc <;> subst hc
      · rename_i i; have := i.toInt_lt; have := i.le_toInt; omega
      · rename_i i; have := i.toNat_lt; omega
    omega
  have hmap : ∀ (f : UInt64 → Val) (o : Out UInt64), ((∀ er, o ≠ .throw er) → ∀ er, (f <$> o) ≠ .throw er) ∧
      ((f <$> o) = .ub ↔ o = .ub) := by
    intro f o; cases o <;> simp
  have fin : ∀ o, o = op.unsigned (asUnsigned v) (asUnsigned w) → (v.ty = .uint ∨ w.ty = .uint) →
      (∀ er, ((Val.uint ·) <$> o) ≠ .throw er) ∧ (((Val.uint ·) <$> o) = .ub ↔
      ((op = .div ∨ op = .rem) ∧ b = 0) ∨
      (v.ty = .int ∧ w.ty = .int ∧
        (if op = .div ∨ op = .rem then a = -2 ^ 63 ∧ b = -1
         else op.exact a b < -2 ^ 63 ∨ 2 ^ 63 ≤ op.exact a b))) := by
    rintro o rfl ht
    obtain ⟨h1, h2⟩ := hu (asUnsigned v) (asUnsigned w)
    obtain ⟨h3, h4⟩ := hmap (Val.uint ·) (op.unsigned (asUnsigned v) (asUnsigned w))
    refine ⟨h3 h1, ?_⟩
    rw [h4, h2, hz w b hw]
    constructor
    · exact .inl
    · rintro (h | ⟨h5, h6, _⟩)
      · exact h
      · rw [h5, h6] at ht; rcases ht with h | h <;> cases h
  cases v <;> simp only [intVal, Option.some.injEq, reduceCtorEq] at hv
  · cases w <;> simp only [intVal, Option.some.injEq, reduceCtorEq] at hw
    · rename_i i j
      subst hv hw
      have hj : j = 0 ↔ j.toInt = 0 := by
        constructor
        · rintro rfl; rfl
        · intro h; apply Int64.toInt_inj.1; rw [h]; rfl
      simp only [arith, Val.ty]
      cases op <;> simp only [Op.signed] <;> (try rw [hj]) <;> split <;> (try split) <;> simp_all
    · simp only [arith, Val.ty] at fin ⊢
      exact fin _ rfl (.inr trivial)
  · cases w <;> simp only [intVal, Option.some.injEq, reduceCtorEq] at hw
    · simp only [arith, Val.ty] at fin ⊢
      exact fin _ rfl (.inl trivial)
    · simp only [arith, Val.ty] at fin ⊢
      exact fin _ rfl (.inl trivial)

/-- Non-numeric operands throw. -/
theorem arith_non_numeric (fl : Op → Val → Val → Val) (op : Op) (v w : Val)
    (h : (v.ty ≠ .int ∧ v.ty ≠ .uint ∧ v.ty ≠ .flt) ∨ (w.ty ≠ .int ∧ w.ty ≠ .uint ∧ w.ty ≠ .flt)) :
    ∃ er, arith fl op v w = .throw er := by
  cases v <;> cases w <;> simp_all [Val.ty, arith]

example : arith (fun _ v _ => v) .add (.int (-1)) (.uint 5) = .ok (.uint 4) ∧
    representable (.int (-1)) (.uint 5) (Op.add.exact (-1) 5) := by
  exact ⟨by rfl, .inr ⟨.inr rfl, by decide⟩⟩

/-- The number denoted by an integer value after `++`, `--` and unary minus: exact for an
Integer when the result fits (undefined otherwise), modulo 2^64 for an Unsigned; anything that
is not a number throws. -/
theorem incr_decr_neg_exact (v : Val) (f : Val → Out Val) (e : Int → Int)
    (h : (f, e) = (incr, fun n => n + 1) ∨ (f, e) = (decr, fun n => n - 1) ∨ (f, e) = (neg, fun n => -n)) :
    (∀ i : Int64, v = .int i →
      (-2 ^ 63 ≤ e i.toInt ∧ e i.toInt < 2 ^ 63 → ∃ j : Int64, f v = .ok (.int j) ∧ j.toInt = e i.toInt) ∧
      (¬(-2 ^ 63 ≤ e i.toInt ∧ e i.toInt < 2 ^ 63) → f v = .ub)) ∧
    (∀ u : UInt64, v = .uint u →
      ∃ w : UInt64, f v = .ok (.uint w) ∧ (w.toNat : Int) = e u.toNat % 2 ^ 64) ∧
    (v.ty ≠ .int → v.ty ≠ .uint → v.ty ≠ .flt → f v = .throw .notNumeric) := by
  have key : ∀ (r : Int), -2 ^ 63 ≤ r ∧ r < 2 ^ 63 → (Int64.ofInt r).toInt = r := by
    intro r hr
    exact Int64.toInt_ofInt_of_le (by omega) (by omega)
  have h1 : (1 : Int64).toInt = 1 := by decide
  have h0 : (0 : Int64).toInt = 0 := by decide
  rcases h with h | h | h <;> cases h <;> refine ⟨?_, ?_, ?_⟩
  · rintro i rfl
    simp only [incr, Op.signed, Op.exact, h1]
    refine ⟨fun hr => ⟨Int64.ofInt (i.toInt + 1), ?_, key _ hr⟩, fun hr => ?_⟩
    · rw [if_neg (by omega)]; rfl
    · rw [if_pos (by omega)]; rfl
  · rintro u rfl
    refine ⟨_, rfl, ?_⟩
    have := u.toNat_lt
    rw [UInt64.toNat_add]
    have e1 : UInt64.toNat 1 = 1 := rfl
    simp only [e1]
    omega
  · intro a b c; cases v <;> simp_all [Val.ty, incr]
  · rintro i rfl
    simp only [decr, Op.signed, Op.exact, h1]
    refine ⟨fun hr => ⟨Int64.ofInt (i.toInt - 1), ?_, key _ hr⟩, fun hr => ?_⟩
    · rw [if_neg (by omega)]; rfl
    · rw [if_pos (by omega)]; rfl
  · rintro u rfl
    refine ⟨_, rfl, ?_⟩
    have := u.toNat_lt
    rw [UInt64.toNat_sub]
    have e1 : UInt64.toNat 1 = 1 := rfl
    simp only [e1]
    omega
  · intro a b c; cases v <;> simp_all [Val.ty, decr]
  · rintro i rfl
    simp only [neg, Op.signed, Op.exact, h0]
    refine ⟨fun hr => ⟨Int64.ofInt (0 - i.toInt), ?_, ?_⟩, fun hr => ?_⟩
    · rw [if_neg (by omega)]; rfl
    · rw [key _ (by omega)]; omega
    · rw [if_pos (by omega)]; rfl
  · rintro u rfl
    refine ⟨_, rfl, ?_⟩
    have := u.toNat_lt
    rw [UInt64.toNat_sub]
    have e1 : UInt64.toNat 0 = 0 := rfl
    simp only [e1]
    omega
  · intro a b c; cases v <;> simp_all [Val.ty, neg]

example : incr (.int 4) = .ok (.int 5) ∧ decr (.uint 0) = .ok (.uint 0xFFFFFFFFFFFFFFFF) ∧
    neg (.int (-0x8000000000000000)) = .ub ∧ neg (.int 7) = .ok (.int (-7)) := by
  refine ⟨by rfl, by rfl, by rfl, by rfl⟩

end Verif
