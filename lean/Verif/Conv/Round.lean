import Verif.Conv.Props
import Verif.Build.Props
import Verif.Ext.Walk
/-!
# C91: scalars, vectors and maps put into a value and taken out again
-/

namespace Verif.Conv
open Verif Guess Build

/-! ## Texts of scalars -/

theorem says_int (i : Int64) : Says (if i.toInt < 0 then 45 :: natDec i.toInt.natAbs else natDec i.toInt.natAbs) i.toInt := by
  by_cases h : i.toInt < 0
  · rw [if_pos h]
    refine ⟨[], minus, natDec i.toInt.natAbs, [], by simp, by simp [Blank], .inr (.inl rfl), ⟨natDec_ne_nil _, natDec_all_digits _⟩, by simp, ?_⟩
    rw [if_pos rfl, decVal_natDec_acc]; omega
  · rw [if_neg h]
    refine ⟨[], [], natDec i.toInt.natAbs, [], by simp, by simp [Blank], .inl rfl, ⟨natDec_ne_nil _, natDec_all_digits _⟩, by simp, ?_⟩
    rw [if_neg (by simp), decVal_natDec_acc]; omega

theorem says_uint (u : UInt64) : Says (natDec u.toNat) u.toNat := by
  refine ⟨[], [], natDec u.toNat, [], by simp, by simp [Blank], .inl rfl, ⟨natDec_ne_nil _, natDec_all_digits _⟩, by simp, ?_⟩
  rw [if_neg (by simp), decVal_natDec_acc]

/-- C91.  The text of a scalar other than a float (`AsString`), read as a number, is the number: it stands for the same
integer as the scalar. -/
theorem text_same_integer (ft : UInt64 → Bytes) (v : Val) (hv : (∃ i, v = .int i) ∨ ∃ u, v = .uint u) :
    ∃ s n, asString ft v = .ok s ∧ Means v n ∧ Means (.str s) n := by
  rcases hv with ⟨i, rfl⟩ | ⟨u, rfl⟩
  · exact ⟨_, _, rfl, .int i, .str (says_int i)⟩
  · exact ⟨_, _, rfl, .uint u, .str (says_uint u)⟩

/-- C91.  An integer written as text and read again is the same integer. -/
theorem integer_text_back (ft : UInt64 → Bytes) (i : Int64) (u : UInt64) :
    (∃ s, asString ft (.int i) = .ok s ∧ castInt .llong (.str s) = .ok i.toInt) ∧
    (∃ s, asString ft (.uint u) = .ok s ∧ castInt .ullong (.str s) = .ok u.toNat) := by
  have h1 := Int64.toInt_lt i
  have h2 := Int64.le_toInt i
  have h3 := u.toNat_lt
  refine ⟨⟨_, rfl, cast_exact_partial .llong _ _ (.str (says_int i)) ?_ (by simp)⟩,
    ⟨_, rfl, cast_exact_partial .ullong _ _ (.str (says_uint u)) ?_ (by simp)⟩⟩
  · simp only [IntTy.Has]; omega
  · simp only [IntTy.Has]; omega

theorem isSpace_same (c : UInt8) : ParseBool.isSpace c = isSpace c := rfl

theorem digit_low {c : UInt8} (h : isDigit c = true) : ParseBool.toLower c = c := by
  simp only [isDigit, Bool.and_eq_true, decide_eq_true_eq] at h
  unfold ParseBool.toLower
  rw [if_neg]
  simp only [Bool.and_eq_true, decide_eq_true_eq, not_and]
  intro h2
  have := UInt8.le_iff_toNat_le.1 h.2
  have := UInt8.le_iff_toNat_le.1 h2
  simp at *
  omega

/-- A number is false as text if it is zero. -/
theorem bool_digits (n : Nat) : ParseBool.parseBool (natDec n) = (n != 0) := by
  by_cases h0 : n = 0
  · subst h0; rw [natDec_lt (by omega)]; rfl
  · obtain ⟨c, cs, e, hc, hz⟩ := natDec_head n (by omega)
    rw [e]
    have h1 : ParseBool.isSpace c = false := isSpace_of_isDigit hc
    have h2 := digit_low hc
    unfold ParseBool.parseBool
    simp only [List.dropWhile, h1, h2]
    rw [if_neg (by rintro rfl; revert hc; decide), if_neg (by rintro rfl; revert hc; decide), if_neg hz]
    simp [h0]

/-- C91.  A truth value, an Integer and an Unsigned are as true as their texts. -/
theorem text_same_truth (ft : UInt64 → Bytes) (v : Val) (hv : (∃ b, v = .bool b) ∨ (∃ i, v = .int i) ∨ ∃ u, v = .uint u) :
    ∃ s, asString ft v = .ok s ∧ Schema.asBool (.str s) = Schema.asBool v := by
  rcases hv with ⟨b, rfl⟩ | ⟨i, rfl⟩ | ⟨u, rfl⟩
  · cases b
    · exact ⟨_, rfl, rfl⟩
    · exact ⟨_, rfl, rfl⟩
  · refine ⟨_, rfl, ?_⟩
    simp only [Schema.asBool, Out.ok.injEq]
    by_cases h : i.toInt < 0
    · rw [if_pos h]
      have h0 : i ≠ 0 := by rintro rfl; revert h; decide
      have : ParseBool.parseBool (45 :: natDec i.toInt.natAbs) = true := by
        unfold ParseBool.parseBool
        simp only [List.dropWhile, show ParseBool.isSpace 45 = false from rfl, show ParseBool.toLower 45 = 45 from rfl]
        rfl
      rw [this]; simp [h0]
    · rw [if_neg h, bool_digits]
      by_cases h0 : i = 0
      · subst h0; rfl
      · have : i.toInt ≠ 0 := fun e => h0 (Int64.toInt_inj.1 (by simpa using e))
        rw [(bne_iff_ne (a := i)).2 h0, bne_iff_ne.2 (by omega)]
  · refine ⟨_, rfl, ?_⟩
    simp only [Schema.asBool, Out.ok.injEq]
    rw [bool_digits]
    by_cases h0 : u = 0
    · subst h0; rfl
    · have : u.toNat ≠ 0 := fun e => h0 (UInt64.toNat_inj.1 (by simpa using e))
      rw [(bne_iff_ne (a := u)).2 h0, bne_iff_ne.2 this]

/-- C91, finding: null is false, its text is true. -/
theorem null_text_false (ft : UInt64 → Bytes) : asString ft .null = .ok [] ∧ Schema.asBool (.str []) = .ok true ∧ Schema.asBool .null = .ok false :=
  ⟨rfl, rfl, rfl⟩

/-! ## Floating point -/

theorem roundNat_small {p n : Nat} (h : n < 2 ^ p) : roundNat p n = n := by
  unfold roundNat
  dsimp only
  rw [if_pos]
  by_cases h0 : n = 0
  · simp [h0]
  · rw [if_neg h0]
    have := (Nat.log2_lt h0).2 h
    omega

theorem roundNat_scale {p n k : Nat} (h : n < 2 ^ p) : roundNat p (n * 2 ^ k) = n * 2 ^ k := by
  by_cases h0 : n = 0
  · subst h0; simp [roundNat]
  · unfold roundNat
    dsimp only
    have hm : n * 2 ^ k ≠ 0 := Nat.mul_ne_zero h0 (Nat.pos_iff_ne_zero.1 (Nat.two_pow_pos k))
    rw [if_neg hm]
    have hl : Nat.log2 (n * 2 ^ k) = Nat.log2 n + k := by
      apply Nat.log2_eq_iff hm |>.2
      have h1 := Nat.log2_self_le h0
      have h2 := Nat.lt_log2_self (n := n)
      rw [Nat.pow_add, show Nat.log2 n + k + 1 = (Nat.log2 n + 1) + k by omega, Nat.pow_add]
      exact ⟨Nat.mul_le_mul_right _ h1, Nat.mul_lt_mul_of_pos_right h2 (Nat.two_pow_pos k)⟩
    have hp := (Nat.log2_lt h0).2 h
    rw [hl]
    by_cases hb : Nat.log2 n + k + 1 ≤ p
    · rw [if_pos hb]
    · rw [if_neg hb]
      have hs : Nat.log2 n + k + 1 - p ≤ k := by omega
      generalize Nat.log2 n + k + 1 - p = s at *
      have hd : 2 ^ s ∣ n * 2 ^ k := Nat.dvd_trans (Nat.pow_dvd_pow 2 hs) (Nat.dvd_mul_left _ _)
      have hr : n * 2 ^ k % 2 ^ s = 0 := Nat.mod_eq_zero_of_dvd hd
      rw [hr, if_neg]
      · exact Nat.div_mul_cancel hd
      · have := Nat.two_pow_pos (s - 1)
        omega

theorem toDouble_exact {n : Int} {k : Nat} (h : n.natAbs < 2 ^ 53) : toDouble (.fin (n * 2 ^ k)) = .fin (n * 2 ^ k) := by
  have hk : (2 : Int) ^ k = ((2 ^ k : Nat) : Int) := by simp
  have hp : (0 : Int) < 2 ^ k := by rw [hk]; exact Int.natCast_pos.2 (Nat.two_pow_pos k)
  have e : (n * 2 ^ k).natAbs = n.natAbs * 2 ^ k := by rw [Int.natAbs_mul, hk, Int.natAbs_natCast]
  simp only [toDouble, e, roundNat_scale h, LD.fin.injEq]
  by_cases hn : n < 0
  · rw [if_pos (Int.mul_neg_of_neg_of_pos hn hp), Int.natCast_mul, ← hk, show (n.natAbs : Int) = -n by omega, Int.neg_mul, Int.neg_neg]
  · rw [if_neg (Int.not_lt.2 (Int.mul_nonneg (by omega) (by omega))), Int.natCast_mul, ← hk, show (n.natAbs : Int) = n by omega]

/-- C91.  As a `long double` of 64 significand bits or more, every Integer and Unsigned is exact; as a `double`, those below
2^53 are.  Null and false are 0, true is 1. -/
theorem float_exact (p : Nat) (hp : 64 ≤ p) (num : Bytes → Option LD) (v : Val) (n : Int)
    (hv : (∃ i : Int64, v = .int i ∧ n = i.toInt) ∨ (∃ u : UInt64, v = .uint u ∧ n = u.toNat) ∨ (v = .null ∧ n = 0) ∨
      ∃ b, v = .bool b ∧ n = if b then 1 else 0) :
    asLongDouble p num v = .ok (.fin (n * 2 ^ 1074)) ∧ (n.natAbs < 2 ^ 53 → asDouble p num v = .ok (.fin (n * 2 ^ 1074))) := by
  have key : asLongDouble p num v = .ok (LD.ofInt p n) ∧ n.natAbs < 2 ^ 64 := by
    rcases hv with ⟨i, rfl, rfl⟩ | ⟨u, rfl, rfl⟩ | ⟨rfl, rfl⟩ | ⟨b, rfl, rfl⟩
    rotate_left 2
    · refine ⟨?_, by decide⟩
      simp [asLongDouble, LD.ofInt, roundNat_small (p := p) (n := 0) (Nat.two_pow_pos p)]
    · have h1 : (1 : Nat) < 2 ^ p := Nat.one_lt_two_pow (by omega)
      cases b
      · refine ⟨?_, by decide⟩
        simp [asLongDouble, LD.ofInt, roundNat_small (p := p) (n := 0) (Nat.two_pow_pos p)]
      · refine ⟨?_, by decide⟩
        simp [asLongDouble, LD.ofInt, roundNat_small h1]
    · refine ⟨rfl, ?_⟩
      have h1 := Int64.toInt_lt i
      have h2 := Int64.le_toInt i
      omega
    · refine ⟨rfl, ?_⟩
      have := u.toNat_lt
      omega
  have he : LD.ofInt p n = .fin (n * 2 ^ 1074) := by
    unfold LD.ofInt
    rw [roundNat_small (Nat.lt_of_lt_of_le key.2 (Nat.pow_le_pow_right (by omega) hp))]
    congr 2
    split <;> omega
  rw [he] at key
  refine ⟨key.1, fun h => ?_⟩
  unfold asDouble
  rw [key.1, Out.map_ok, toDouble_exact h]

/-- 2^53 - 1 -/
example : ∃ i : Int64, (Val.int 9007199254740991) = .int i ∧ (9007199254740991 : Int) = i.toInt ∧ (9007199254740991 : Int).natAbs < 2 ^ 53 :=
  ⟨_, rfl, by decide, by decide⟩

/-! ## Containers -/

theorem castAll_ok {f : Val → Out α} : ∀ (xs : List Val) (ys : List α), castAll f xs = .ok ys ↔ xs.map f = ys.map .ok
  | [], ys => by cases ys <;> simp [castAll]
  | x :: xs, ys => by
    cases ys with
    | nil => simp [castAll, Out.bind_eq_ok]
    | cons y ys =>
      simp only [castAll, Out.bind_eq_ok, List.map_cons, List.cons.injEq, Out.ok.injEq]
      constructor
      · rintro ⟨a, h1, b, h2, rfl, rfl⟩; exact ⟨h1, (castAll_ok xs _).1 h2⟩
      · rintro ⟨h1, h2⟩; exact ⟨y, h1, ys, (castAll_ok xs _).2 h2, rfl, rfl⟩

theorem castPairs_ok {f : Val → Out α} : ∀ (m : List (Bytes × Val)) (ys : List (Bytes × α)),
    castPairs f m = .ok ys ↔ m.map (fun e => (e.1, f e.2)) = ys.map (fun e => (e.1, .ok e.2))
  | [], ys => by cases ys <;> simp [castPairs]
  | (k, x) :: m, ys => by
    cases ys with
    | nil => simp [castPairs, Out.bind_eq_ok]
    | cons y ys =>
      simp only [castPairs, Out.bind_eq_ok, List.map_cons, List.cons.injEq, Out.ok.injEq, Prod.mk.injEq]
      constructor
      · rintro ⟨a, h1, b, h2, rfl, rfl⟩; exact ⟨⟨rfl, h1⟩, (castPairs_ok m _).1 h2⟩
      · rintro ⟨⟨h0, h1⟩, h2⟩; exact ⟨y.2, h1, ys, (castPairs_ok m _).2 h2, Prod.ext h0 rfl, rfl⟩

/-- C91.  A value is converted to a vector exactly if it is a list all of whose elements can be converted, and then
element by element. -/
theorem vector_exact (f : Val → Out α) (v : Val) (ys : List α) :
    castVector f v = .ok ys ↔ ∃ xs, v = .list xs ∧ xs.map f = ys.map .ok := by
  cases v <;> simp [castVector, castAll_ok]

/-- C91.  A value is converted to a `std::map` exactly if it is a map all of whose values can be converted, with the same
keys. -/
theorem map_exact (f : Val → Out α) (v : Val) (ys : List (Bytes × α)) :
    castMap f v = .ok ys ↔ ∃ m, v = .map m ∧ m.map (fun e => (e.1, f e.2)) = ys.map (fun e => (e.1, .ok e.2)) := by
  cases v <;> simp [castMap, castPairs_ok]

/-- C91.  Vectors and maps put into a value come out as they were, if their elements do. -/
theorem containers_back (g : α → Val) (f : Val → Out α) (h : ∀ x, f (g x) = .ok x) (xs : List α) (m : List (Bytes × α)) :
    castVector f (ofVector g xs) = .ok xs ∧ castMap f (ofMap g m) = .ok m := by
  constructor
  · exact (vector_exact f _ _).2 ⟨_, rfl, by rw [List.map_map]; exact List.map_congr_left fun x _ => h x⟩
  · exact (map_exact f _ _).2 ⟨_, rfl, by rw [List.map_map]; exact List.map_congr_left fun e _ => by simp [h]⟩

/-- Vectors of maps of vectors of 64-bit integers. -/
example (x : List (List (Bytes × List Int64))) :
    castVector (castMap (castVector asInt)) (ofVector (ofMap (ofVector .int)) x) = .ok x :=
  (containers_back (ofMap (ofVector .int)) (castMap (castVector asInt))
    (fun m => (containers_back (ofVector .int) (castVector asInt) (fun xs => (containers_back .int asInt (fun _ => rfl) xs []).1) [] m).2) x []).1

/-- C91, finding: null, which counts as an empty list elsewhere, is no empty vector and no empty map. -/
theorem null_vector_false (f : Val → Out α) : castVector f .null = .throw .unexpectedType ∧ castMap f .null = .throw .unexpectedType :=
  ⟨rfl, rfl⟩

/-- The keys of a complex number. -/
def kReal : Bytes := [114, 101, 97, 108]
def kImag : Bytes := [105, 109, 97, 103]

/-- C91.  The forms of a complex number: a map with real and imag, a list of two, and for a real number the number alone, a
list of one or a map without imag. -/
theorem complex_forms (zero : α) (f : Val → Out α) (x y : Val) (r c : α) (hx : f x = .ok r) (hy : f y = .ok c) :
    castComplex zero f (.map [(kImag, y), (kReal, x)]) = .ok (r, c) ∧ castComplex zero f (.list [x, y]) = .ok (r, c) ∧
    castComplex zero f (.map [(kReal, x)]) = .ok (r, zero) ∧ castComplex zero f (.list [x]) = .ok (r, zero) ∧
    (Schema.isNumber x = true → castComplex zero f x = .ok (r, zero)) ∧ castComplex zero f .null = .ok (zero, zero) := by
  refine ⟨?_, ?_, ?_, ?_, ?_, rfl⟩
  · simp [castComplex, kImag, kReal, AMap.get, hx, hy]
  · simp [castComplex, hx, hy]
  · simp [castComplex, kReal, AMap.get, hx]
  · simp [castComplex, hx]
  · intro h
    cases x <;> simp [Schema.isNumber] at h <;> simp [castComplex, hx]

end Verif.Conv
