import Verif.Dec.Text
/-!
# A Float made into text and converted back (src/Variant.cc 966-970, 1036-1042)

`AsString` of a Float is `oss << f`: `%Lg`, six digits.  A text converted to a number is read with `iss >> long double`, and
`AsDouble` rounds the `long double` to a `double` (include/Variant/Variant.h 173).  The C++ library is modelled as
the standards demand and libstdc++ does it on x86, in the "C" locale.
-/

namespace Verif.Dec
open Verif Verif.Num

/-! ## The model -/

/-- Without the zeros at the end. -/
def trim (ds : Bytes) : Bytes := (ds.reverse.dropWhile (· == 48)).reverse

/-- What `%g` makes of the text of `%#g` (C standard, 7.21.6.1): zeros at the end of the digits after the point are left out, and so
is the point if no digit remains. -/
def strip (t : Bytes) : Bytes :=
  let f := fracOf (spanDigits t).2
  (spanDigits t).1 ++ (if trim f.1 = [] then [] else 46 :: trim f.1) ++ f.2

/-- `Float::AsString` (src/Variant.cc 966-970): `oss << f` with the six digits that are the default.  Simplified: the sign of a NaN
is not modelled. -/
def floatText : F → Bytes
  | .fin neg mag => (if neg then [45] else []) ++ (if mag = 0 then [48] else strip (layout 6 (sig 6 mag).1 (sig 6 mag).2))
  | .inf neg => (if neg then [45] else []) ++ [105, 110, 102]
  | .nan => [110, 97, 110]

/-- An `e` with no digits after it. -/
def badExp : Bytes → Bool
  | c :: t => (c == 101 || c == 69) && (spanDigits (signOf t).2).1.isEmpty
  | [] => false

/-- `iss >> val` for a `long double` (src/Variant.cc 1036-1042): blanks, sign, digits with or without a point, exponent; the nearest
`long double`.  No digits, an `e` with no digits after it and a number too large are failures (`none`), and so are `inf` and `nan`.
What follows is left unread. -/
def readLong (t : Bytes) : Option F :=
  let s := signOf (t.dropWhile isSpace)
  let i := spanDigits s.2
  let f := fracOf i.2
  if i.1 ++ f.1 = [] then none
  else if badExp f.2 then none
  else match fit extended s.1 (roundMag extended ((decVal 0 (i.1 ++ f.1) : Rat) * 10 ^ (expOf f.2 - (f.1.length : Int)))) with
    | .fin neg mag => some (.fin neg mag)
    | _ => none

/-- `(double)` of a `long double` (include/Variant/Variant.h 173). -/
def narrow : F → F
  | .fin neg mag => fit double neg (roundMag double mag)
  | f => f

/-- `Variant(text).AsDouble()`. -/
def textDouble (t : Bytes) : Option F := (readLong t).map narrow

/-! ## Text -/

theorem trim_spec (ds : Bytes) : ∃ k, ds = trim ds ++ List.replicate k 48 := by
  refine ⟨(ds.reverse.takeWhile (· == 48)).length, ?_⟩
  have h := List.takeWhile_append_dropWhile (p := (· == (48 : UInt8))) (l := ds.reverse)
  have hr : ds.reverse.takeWhile (· == 48) = List.replicate (ds.reverse.takeWhile (· == 48)).length 48 := by
    apply List.eq_replicate_of_mem
    intro b hb
    have := List.all_eq_true.1 (List.all_takeWhile (p := (· == (48 : UInt8))) (l := ds.reverse)) b hb
    simpa using this
  have h2 : ds = (ds.reverse).reverse := by simp
  conv => lhs; rw [h2, ← h, List.reverse_append]
  rw [trim]
  congr 1
  conv => lhs; rw [hr]
  rw [List.reverse_replicate]

theorem decVal_more (acc k : Nat) : decVal acc (List.replicate k 48) = acc * 10 ^ k := by
  induction k with
  | zero => rw [List.replicate_zero, decVal_nil]; simp
  | succ k ih =>
    rw [List.replicate_succ', decVal_append, ih, show (48 : UInt8) = digitByte 0 by rfl, decVal_digit _ _ (by decide), Nat.pow_succ,
      Nat.mul_assoc, Nat.add_zero]

theorem exp_head {ex : Bytes} (he : ExpPart ex) : (∀ c t, ex = c :: t → isDigit c = false) ∧ fracOf ex = ([], ex) ∧ badExp ex = false := by
  rcases he with rfl | ⟨x, sn, ds, rfl, hx, hs, h0, hd⟩
  · exact ⟨by intro c t h; simp at h, rfl, rfl⟩
  · obtain ⟨d, dt, rfl⟩ : ∃ d dt, ds = d :: dt := by cases ds with
      | nil => exact absurd rfl h0
      | cons d dt => exact ⟨d, dt, rfl⟩
    have hdd := hd d (by simp)
    refine ⟨?_, ?_, ?_⟩
    · intro c t h
      cases h
      rcases hx with rfl | rfl <;> decide
    · rcases hx with rfl | rfl <;> rfl
    · have : (spanDigits (signOf (sn ++ d :: dt)).2).1 ≠ [] := by
        have e : (signOf (sn ++ d :: dt)).2 = d :: dt := by
          rcases hs with rfl | rfl | rfl
          · rw [List.nil_append, signOf_digits _ hdd]
          · rfl
          · rfl
        rw [e, spanDigits, if_pos hdd]
        simp
      simp only [badExp, Bool.and_eq_false_iff, List.isEmpty_eq_false_iff]
      exact .inr this

theorem strip_parts {ip fp ex : Bytes} (hi : ∀ b ∈ ip, isDigit b = true) (hf : ∀ b ∈ fp, isDigit b = true) (he : ExpPart ex) :
    strip (ip ++ [46] ++ fp ++ ex) = ip ++ (if trim fp = [] then [] else 46 :: trim fp) ++ ex := by
  have e : (ip ++ [46] ++ fp ++ ex : Bytes) = ip ++ (46 :: (fp ++ ex)) := by simp
  unfold strip
  rw [e, span_apart hi (by rintro d t h; cases h; decide)]
  simp only [fracOf]
  rw [span_apart hf (exp_head he).1]

theorem digit_not_space {c : UInt8} (hc : isDigit c = true) : isSpace c = false := by
  simp only [isDigit, Bool.and_eq_true, decide_eq_true_eq, UInt8.le_iff_toNat_le] at hc
  have e1 : (48 : UInt8).toNat = 48 := rfl
  have e3 : (9 : UInt8).toNat = 9 := rfl
  have e4 : (13 : UInt8).toNat = 13 := rfl
  simp only [isSpace, Bool.or_eq_false_iff, Bool.and_eq_false_iff, beq_eq_false_iff_ne, decide_eq_false_iff_not,
    UInt8.le_iff_toNat_le]
  refine ⟨?_, .inr (by omega)⟩
  rintro rfl
  have : (32 : UInt8).toNat = 32 := rfl
  omega

/-- How a number is read. -/
theorem readLong_parts {sg ip fp ex : Bytes} (hs : sg = [] ∨ sg = [45]) (h0 : ip ≠ []) (hi : ∀ b ∈ ip, isDigit b = true)
    (hf : ∀ b ∈ fp, isDigit b = true) (he : ExpPart ex) {V : Rat}
    (hV : ((decVal 0 (ip ++ fp) : Nat) : Rat) * 10 ^ (expOf ex - (fp.length : Int)) = V) (hb : roundMag extended V < 2 ^ extended.hi) :
    readLong (sg ++ (ip ++ (if trim fp = [] then [] else 46 :: trim fp) ++ ex)) =
      some (.fin (decide (sg = [45])) (roundMag extended V)) := by
  obtain ⟨c, cs, rfl⟩ : ∃ c cs, ip = c :: cs := by cases ip with
    | nil => exact absurd rfl h0
    | cons c cs => exact ⟨c, cs, rfl⟩
  have hc := hi c (by simp)
  have hsig : ∀ w : Bytes, signOf ((sg ++ ((c :: cs) ++ w)).dropWhile isSpace) = (decide (sg = [45]), (c :: cs) ++ w) := by
    intro w
    rcases hs with rfl | rfl
    · rw [List.nil_append, List.cons_append, List.dropWhile_cons_of_neg (by simp [digit_not_space hc]), signOf_digits _ hc]
      rfl
    · rw [List.singleton_append, List.dropWhile_cons_of_neg (by decide)]
      rfl
  obtain ⟨k, hk⟩ := trim_spec fp
  have ht : ∀ b ∈ trim fp, isDigit b = true := fun b hb => hf b (by rw [hk]; exact List.mem_append_left _ hb)
  have hval : ((decVal 0 (c :: cs ++ trim fp) : Nat) : Rat) * 10 ^ (expOf ex - ((trim fp).length : Int)) = V := by
    rw [← hV]
    conv => rhs; rw [hk]
    rw [← List.append_assoc, decVal_append _ _ (List.replicate k 48), decVal_more, Rat.natCast_mul, ← T_nat, List.length_append, List.length_replicate,
      Rat.mul_assoc, ← T_add]
    congr 2
    omega
  obtain ⟨e1, e2, e3⟩ := exp_head he
  have fin : ∀ fr : Bytes, ((decVal 0 (c :: cs ++ fr) : Nat) : Rat) * 10 ^ (expOf ex - (fr.length : Int)) = V →
      (if (c :: cs) ++ fr = [] then none
        else if badExp ex = true then none
        else match fit extended (decide (sg = [45])) (roundMag extended
            (((decVal 0 (c :: cs ++ fr) : Nat) : Rat) * 10 ^ (expOf ex - (fr.length : Int)))) with
          | .fin neg mag => some (F.fin neg mag)
          | _ => none) = some (.fin (decide (sg = [45])) (roundMag extended V)) := by
    intro fr h
    rw [if_neg (by simp), e3, if_neg (by simp), h, fit, if_pos hb]
  unfold readLong
  by_cases htr : trim fp = []
  · rw [if_pos htr, List.append_nil, hsig ex]
    dsimp only
    rw [span_apart hi e1]
    dsimp only
    rw [e2]
    rw [htr] at hval
    exact fin [] hval
  · rw [if_neg htr, List.append_assoc, hsig _]
    dsimp only
    rw [span_apart hi (by rintro d t h; cases h; decide)]
    simp only [List.cons_append, fracOf]
    rw [span_apart ht e1]
    exact fin (trim fp) hval

end Verif.Dec
