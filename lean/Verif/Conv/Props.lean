import Verif.Conv.Model
import Verif.Guess.Props
import Verif.Val.CompareProps
/-!
# C90: conversions of values to C++ types
-/

namespace Verif.Conv
open Verif Guess

/-! ## Specification -/

/-- The integer at the beginning of a text: blanks, a sign if any, digits, and anything that does not go on with a digit. -/
def Says (s : Bytes) (n : Int) : Prop :=
  ∃ a sg ds r, s = a ++ sg ++ ds ++ r ∧ Blank a ∧ Sign sg ∧ Digits ds ∧ (∀ c, r.head? = some c → isDigit c = false) ∧
    n = if sg = minus then -(decVal 0 ds : Int) else decVal 0 ds

/-- The integer a value stands for: numbers stand for themselves, without their fraction; null and false for 0, true for
1; texts for the integer they begin with. -/
inductive Means : Val → Int → Prop
  | null : Means .null 0
  | false : Means (.bool false) 0
  | true : Means (.bool true) 1
  | int (i : Int64) : Means (.int i) i.toInt
  | uint (u : UInt64) : Means (.uint u) u.toNat
  | flt {b : UInt64} {x : Int} : LD.ofDouble b = .fin x → Means (.flt b) (Int.tdiv x (2 ^ 1074))
  | str {s : Bytes} {n : Int} : Says s n → Means (.str s) n

/-- The numbers of an integer type. -/
def IntTy.Has (t : IntTy) (n : Int) : Prop :=
  match t with
  | .char | .schar => -2 ^ 7 ≤ n ∧ n < 2 ^ 7
  | .uchar => 0 ≤ n ∧ n < 2 ^ 8
  | .short => -2 ^ 15 ≤ n ∧ n < 2 ^ 15
  | .ushort => 0 ≤ n ∧ n < 2 ^ 16
  | .int => -2 ^ 31 ≤ n ∧ n < 2 ^ 31
  | .uint => 0 ≤ n ∧ n < 2 ^ 32
  | .long | .llong => -2 ^ 63 ≤ n ∧ n < 2 ^ 63
  | .ulong | .ullong => 0 ≤ n ∧ n < 2 ^ 64

instance (t : IntTy) (n : Int) : Decidable (t.Has n) := by cases t <;> (unfold IntTy.Has; infer_instance)

/-! ## Texts -/

theorem skipSpace_eq (s : Bytes) : skipSpace s = s.dropWhile isSpace := by
  induction s with
  | nil => rfl
  | cons c s ih =>
    by_cases h : isSpace c = true
    · simp [skipSpace, h, ih]
    · simp [skipSpace, h]

theorem extractU64_eq (s : Bytes) : extractU64 s =
    (let sg := Ext.sign (s.dropWhile isSpace)
     let d := (spanDigits sg.2).1
     if d = [] then none
     else if decVal 0 d < 2 ^ 64 then some (if sg.1 then (2 ^ 64 - decVal 0 d) % 2 ^ 64 else decVal 0 d) else none) := by
  unfold extractU64
  rw [skipSpace_eq]
  cases h : s.dropWhile isSpace with
  | nil => rfl
  | cons c t =>
    by_cases h1 : c = 45
    · subst h1; simp [Ext.sign]
    · by_cases h2 : c = 43
      · subst h2; simp [Ext.sign]
      · simp [Ext.sign, h1, h2]

theorem says_read {s : Bytes} {n : Int} (h : Says s n) : ∃ neg ds, Ext.sign (s.dropWhile isSpace) = (neg, (Ext.sign (s.dropWhile isSpace)).2) ∧
    (spanDigits (Ext.sign (s.dropWhile isSpace)).2).1 = ds ∧ ds ≠ [] ∧ n = if neg = true then -(decVal 0 ds : Int) else decVal 0 ds := by
  obtain ⟨a, sg, ds, r, rfl, ha, hsg, hds, hr, hn⟩ := h
  have hd : ∀ c, (ds ++ r).head? = some c → isDigit c = true := by
    intro c hc
    obtain ⟨h0, h1⟩ := hds
    cases ds with
    | nil => exact absurd rfl h0
    | cons d ds => simp at hc; subst hc; exact h1 d (by simp)
  have h1 : ((a ++ sg ++ ds ++ r).dropWhile isSpace) = sg ++ (ds ++ r) := by
    rw [List.append_assoc, List.append_assoc, dropWhile_blank ha, dropWhile_of_head]
    intro c hc
    rcases hsg with rfl | rfl | rfl
    · exact isSpace_of_isDigit (hd c hc)
    · simp at hc; subst hc; rfl
    · simp at hc; subst hc; rfl
  have h2 := sign_append (r := ds ++ r) hsg (fun c hc => by
    have := hd c hc
    constructor <;> (rintro rfl; revert this; decide))
  rw [h1]
  refine ⟨decide (sg = minus), ds, Prod.ext h2.2 rfl, ?_, hds.1, ?_⟩
  · rw [show (Ext.sign (sg ++ (ds ++ r))).2 = ds ++ r from h2.1, spanDigits_append hds.2 r hr]
  · rw [hn]; simp

theorem says_of_read (s : Bytes) (h : (spanDigits (Ext.sign (s.dropWhile isSpace)).2).1 ≠ []) : ∃ n, Says s n := by
  obtain ⟨a, e1, ha⟩ := split_dropWhile s
  obtain ⟨sg, e2, hsg⟩ := sign_split (s.dropWhile isSpace)
  obtain ⟨e3, h3, h4⟩ := spanDigits_spec (Guess.sign (s.dropWhile isSpace)).2
  refine ⟨_, a, sg, _, _, ?_, ha, hsg, ⟨h, h3⟩, h4, rfl⟩
  rw [List.append_assoc, List.append_assoc, ← e3, ← e2, ← e1]

/-- A text stands for one integer at most. -/
theorem says_one {s : Bytes} {n m : Int} (h : Says s n) (h' : Says s m) : n = m := by
  obtain ⟨a, ds, e1, e2, _, e4⟩ := says_read h
  obtain ⟨b, ds', f1, f2, _, f4⟩ := says_read h'
  have : a = b := by rw [e1] at f1; exact (Prod.mk.inj f1).1
  subst this
  rw [e2] at f2; subst f2
  rw [e4, f4]

/-- `AsInt` of a text. -/
theorem int_text {s : Bytes} {n : Int} (h : Says s n) :
    asInt (.str s) = if -2 ^ 63 ≤ n ∧ n < 2 ^ 63 then .ok (Int64.ofInt n) else .throw .unableToConvert := by
  obtain ⟨neg, ds, e1, e2, e3, rfl⟩ := says_read h
  have hs : (Ext.sign (s.dropWhile isSpace)).1 = neg := (Prod.ext_iff.1 e1).1
  unfold asInt extractI64
  simp only [e2, hs, if_neg e3]
  cases neg with
  | true =>
    simp only [if_true]
    by_cases hc : decVal 0 ds ≤ 2 ^ 63
    · rw [if_pos hc, if_pos (by omega)]
    · rw [if_neg hc, if_neg (by omega)]
  | false =>
    simp only [Bool.false_eq_true, if_false]
    by_cases hc : decVal 0 ds < 2 ^ 63
    · rw [if_pos hc, if_pos (by omega)]
    · rw [if_neg hc, if_neg (by omega)]

/-- `AsUnsigned` of a text. -/
theorem uint_text {s : Bytes} {n : Int} (h : Says s n) :
    asUnsigned (.str s) = if -2 ^ 64 < n ∧ n < 2 ^ 64 then .ok (UInt64.ofNat (n % 2 ^ 64).toNat) else .throw .unableToConvert := by
  obtain ⟨neg, ds, e1, e2, e3, rfl⟩ := says_read h
  have hs : (Ext.sign (s.dropWhile isSpace)).1 = neg := (Prod.ext_iff.1 e1).1
  simp only [asUnsigned, extractU64_eq, e2, hs, if_neg e3]
  cases neg with
  | true =>
    simp only [if_true]
    by_cases hc : decVal 0 ds < 2 ^ 64
    · rw [if_pos hc, if_pos (by omega)]
      simp only
      congr 2
      omega
    · rw [if_neg hc, if_neg (by omega)]
  | false =>
    simp only [Bool.false_eq_true, if_false]
    by_cases hc : decVal 0 ds < 2 ^ 64
    · rw [if_pos hc, if_pos (by omega)]
      simp only
      congr 2
      omega
    · rw [if_neg hc, if_neg (by omega)]

theorem no_text {s : Bytes} (h : ¬ ∃ n, Says s n) : asInt (.str s) = .throw .unableToConvert ∧ asUnsigned (.str s) = .throw .unableToConvert := by
  have h1 : (spanDigits (Ext.sign (s.dropWhile isSpace)).2).1 = [] := by
    by_cases h2 : (spanDigits (Ext.sign (s.dropWhile isSpace)).2).1 = []
    · exact h2
    · exact absurd (says_of_read s h2) h
  constructor
  · unfold asInt extractI64; simp [h1]
  · simp [asUnsigned, extractU64_eq, h1]

/-! ## `AsInt` and `AsUnsigned` of what a value means -/

theorem asInt_means {v : Val} {n : Int} (h : Means v n) (hn : -2 ^ 63 ≤ n ∧ n < 2 ^ 63) : asInt v = .ok (Int64.ofInt n) := by
  cases h with
  | null => rfl
  | false => rfl
  | true => rfl
  | int i => simp [asInt, Args.asIntNum]
  | uint u =>
    simp only [asInt, Args.asIntNum, Out.ok.injEq]
    apply Int64.toInt_inj.1
    rw [Int64.toInt_ofInt_of_le (by omega) (by omega)]
    rw [show u.toInt64 = Int64.ofInt u.toNat from by
      apply Int64.toBitVec_inj.1
      apply BitVec.eq_of_toNat_eq
      simp]
    rw [Int64.toInt_ofInt_of_le (by omega) (by omega)]
  | flt hb => simp only [asInt, Args.asIntNum, hb]; rw [if_pos hn]
  | str hs => rw [int_text hs, if_pos hn]

theorem asUnsigned_means {v : Val} {n : Int} (h : Means v n) (hn : 0 ≤ n ∧ n < 2 ^ 64) : asUnsigned v = .ok (UInt64.ofNat n.toNat) := by
  cases h with
  | null => rfl
  | false => rfl
  | true => rfl
  | int i =>
    simp only [asUnsigned, Schema.asUnsignedNum, Out.ok.injEq]
    apply UInt64.toNat_inj.1
    have := Int64.toInt_lt i
    rw [Int64.toNat_toUInt64_of_le (by simpa [Int64.le_iff_toInt_le] using hn.1)]
    rw [UInt64.toNat_ofNat_of_lt' (by show _ < 2 ^ 64; omega)]
    rfl
  | uint u => simp [asUnsigned, Schema.asUnsignedNum]
  | flt hb => simp only [asUnsigned, Schema.asUnsignedNum, hb]; rw [if_pos hn]
  | str hs =>
    rw [uint_text hs, if_pos (by omega)]
    congr 2
    omega

theorem wrap_has {t : IntTy} {n : Int} (h : t.Has n) : t.wrap n = n := by
  cases t <;> simp [IntTy.Has, IntTy.isSigned, IntTy.bits] at h <;>
    simp only [IntTy.wrap, IntTy.isSigned, IntTy.bits, true_and, false_and, Bool.false_eq_true, if_false, Nat.reduceSub] <;>
    (try split) <;> omega

theorem wrap_mod (t : IntTy) (n : Int) : t.wrap (n % 2 ^ 64) = t.wrap n := by
  have : n % 2 ^ 64 % 2 ^ t.bits = n % 2 ^ t.bits := by cases t <;> (simp only [IntTy.bits]; omega)
  simp only [IntTy.wrap, this]

theorem has_int {t : IntTy} {n : Int} (h : t.Has n) (ht : t.viaInt = true) : -2 ^ 63 ≤ n ∧ n < 2 ^ 63 := by
  cases t <;> simp [IntTy.viaInt] at ht <;> simp [IntTy.Has, IntTy.isSigned, IntTy.bits] at h <;> omega

theorem bmod_back (n : Nat) (h : n < 2 ^ 64) : (n : Int).bmod (2 ^ 64) % 2 ^ 64 = n := by
  have := Int.bmod_emod (x := (n : Int)) (m := 2 ^ 64)
  have e : ((2 ^ 64 : Nat) : Int) = 2 ^ 64 := by decide
  rw [e] at this
  omega

/-- The bits of a value as an unsigned: what it means modulo 2^64, where that is defined. -/
theorem asUnsigned_mod {v : Val} {n : Int} (h : Means v n) (hn : -2 ^ 63 ≤ n ∧ n < 2 ^ 64) (hf : 0 ≤ n ∨ ∀ b, v ≠ .flt b) :
    ∃ u : UInt64, asUnsigned v = .ok u ∧ (u.toNat : Int) = n % 2 ^ 64 := by
  by_cases h0 : 0 ≤ n
  · refine ⟨_, asUnsigned_means h ⟨h0, hn.2⟩, ?_⟩
    rw [UInt64.toNat_ofNat_of_lt' (by show _ < 2 ^ 64; omega)]
    omega
  · cases h with
    | int i =>
      refine ⟨_, rfl, ?_⟩
      have h1 : i.toInt = (i.toUInt64.toNat : Int).bmod (2 ^ 64) := BitVec.toInt_eq_toNat_bmod _
      have h2 := i.toUInt64.toNat_lt
      rw [h1, bmod_back _ h2]
    | flt => exact absurd rfl (hf.resolve_left h0 _)
    | str hs =>
      refine ⟨_, by rw [uint_text hs, if_pos (by omega)], ?_⟩
      rw [UInt64.toNat_ofNat_of_lt' (by show _ < 2 ^ 64; omega)]
      omega
    | uint u => omega
    | _ => omega

theorem means_flt {b : UInt64} {x n : Int} (h : LD.ofDouble b = .fin x) (hn : Int.tdiv x (2 ^ 1074) = n) : Means (.flt b) n := hn ▸ .flt h

/-! ## Theorems -/

/-- C90.  A conversion to an integer type gives the integer the value stands for, if the type has it.  Partial: a negative
float as a `signed char` is left out (see `signed_char_false`). -/
theorem cast_exact_partial (t : IntTy) (v : Val) (n : Int) (h : Means v n) (hn : t.Has n)
    (hs : t = .schar → 0 ≤ n ∨ ∀ b, v ≠ .flt b) : castInt t v = .ok n := by
  unfold castInt
  by_cases ht : t.viaInt = true
  · have hi := has_int hn ht
    rw [if_pos ht, asInt_means h hi, Out.map_ok, Int64.toInt_ofInt_of_le (by omega) (by omega), wrap_has hn]
  · rw [if_neg ht]
    have hb : (-2 ^ 63 ≤ n ∧ n < 2 ^ 64) ∧ (0 ≤ n ∨ ∀ b, v ≠ .flt b) := by
      cases t <;> simp [IntTy.viaInt] at ht <;> simp [IntTy.Has, IntTy.isSigned, IntTy.bits] at hn <;>
        first | exact ⟨by omega, .inl hn.1⟩ | exact ⟨by omega, hs rfl⟩
    obtain ⟨u, hu, e⟩ := asUnsigned_mod h hb.1 hb.2
    rw [hu, Out.map_ok, e, wrap_mod, wrap_has hn]

/-- A float with a fraction and a text with a sign, blanks and a unit. -/
example : castInt .int (.flt 0xC00C000000000000) = .ok (-3) ∧ castInt .short (.str [32, 45, 49, 50, 107, 103]) = .ok (-12) :=
  ⟨cast_exact_partial .int _ _ (means_flt (x := -3 * 2 ^ 1074 - 2 ^ 1073) (n := -3) (by decide +kernel) (by decide +kernel)) (by decide) (by simp),
   cast_exact_partial .short _ (-12) (.str ⟨[32], [45], [49, 50], [107, 103], rfl, by simp [Blank, isSpace], .inr (.inl rfl),
     ⟨by simp, by decide⟩, by simp [isDigit], by decide⟩) (by decide) (by simp)⟩

/-- C90.  What stands for no number is refused: texts that do not begin with an integer, lists, maps and blobs. -/
theorem cast_refused (t : IntTy) (v : Val)
    (h : (∃ s, v = .str s ∧ ¬ ∃ n, Says s n) ∨ (∃ xs, v = .list xs) ∨ (∃ m, v = .map m) ∨ ∃ b, v = .blob b) :
    castInt t v = .throw .unableToConvert := by
  unfold castInt
  rcases h with ⟨s, rfl, h⟩ | ⟨xs, rfl⟩ | ⟨m, rfl⟩ | ⟨b, rfl⟩
  · rw [(no_text h).1, (no_text h).2]; split <;> rfl
  · split <;> rfl
  · split <;> rfl
  · split <;> rfl

/-- "kg" -/
example : ¬ ∃ n, Says [107, 103] n := by
  rintro ⟨n, h⟩
  obtain ⟨_, ds, _, h2, h3, _⟩ := says_read h
  exact h3 (h2.symm.trans (by decide))

/-- C90.  A text with an integer that does not fit 64 bits is refused. -/
theorem cast_text_overflow (t : IntTy) (s : Bytes) (n : Int) (h : Says s n) (hn : n ≤ -2 ^ 64 ∨ 2 ^ 64 ≤ n) :
    castInt t (.str s) = .throw .unableToConvert := by
  have h1 : ¬ (-2 ^ 63 ≤ n ∧ n < 2 ^ 63) := by omega
  have h2 : ¬ (-2 ^ 64 < n ∧ n < 2 ^ 64) := by omega
  unfold castInt
  rw [int_text h, uint_text h, if_neg h1, if_neg h2]
  split <;> rfl

/-- C90.  Whatever is cast, the result is a number of the type. -/
theorem cast_in_range (t : IntTy) (v : Val) (n : Int) (h : castInt t v = .ok n) : t.Has n := by
  have key : ∀ m : Int, t.Has (t.wrap m) := by
    intro m
    cases t <;> simp only [IntTy.Has, IntTy.wrap, IntTy.isSigned, IntTy.bits, true_and, false_and, Bool.false_eq_true, if_false, Nat.reduceSub] <;>
      (try split) <;> omega
  unfold castInt at h
  split at h
  · cases ha : asInt v with
    | ok i => rw [ha, Out.map_ok] at h; cases h; exact key _
    | throw e => rw [ha] at h; cases h
    | ub => rw [ha] at h; cases h
  · cases ha : asUnsigned v with
    | ok i => rw [ha, Out.map_ok] at h; cases h; exact key _
    | throw e => rw [ha] at h; cases h
    | ub => rw [ha] at h; cases h

/-- 40000 as a `short` -/
example : castInt .short (.int 40000) = .ok (-25536) ∧ IntTy.short.Has (-25536) := by decide

/-- C90, finding: a number that the type does not have is no error; its low bits are taken.  For all integers. -/
theorem cast_wraps_false (t : IntTy) (v : Val) (n : Int) (hv : (∃ i : Int64, v = .int i ∧ n = i.toInt) ∨ ∃ u : UInt64, v = .uint u ∧ n = u.toNat) :
    castInt t v = .ok (t.wrap n) := by
  unfold castInt
  rcases hv with ⟨i, rfl, rfl⟩ | ⟨u, rfl, rfl⟩
  · split
    · rfl
    · obtain ⟨u, hu, e⟩ := asUnsigned_mod (.int i) ⟨by have := Int64.le_toInt i; omega, by have := Int64.toInt_lt i; omega⟩ (.inr (by simp))
      rw [hu, Out.map_ok, e, wrap_mod]
  · split
    · show Out.ok (t.wrap (u.toInt64).toInt) = _
      rw [← wrap_mod t u.toInt64.toInt]
      congr 2
      have h1 : u.toInt64.toInt = (u.toNat : Int).bmod (2 ^ 64) := BitVec.toInt_eq_toNat_bmod _
      have h2 := u.toNat_lt
      rw [h1, bmod_back _ h2]
    · rfl

/-- 300 as an `unsigned char`, -1 as an `unsigned`, 2^32 + 5 as an `int`. -/
example : castInt .uchar (.int 300) = .ok 44 ∧ castInt .uint (.int (-1)) = .ok (2 ^ 32 - 1) ∧ castInt .int (.uint 4294967301) = .ok 5 := by
  decide

/-- C90, finding: a negative float as a `signed char` is undefined behaviour although the type has the number. -/
theorem signed_char_false : Means (.flt 0xC014000000000000) (-5) ∧ IntTy.schar.Has (-5) ∧ castInt .schar (.flt 0xC014000000000000) = .ub ∧
    castInt .char (.flt 0xC014000000000000) = .ok (-5) := by
  have hb : LD.ofDouble 0xC014000000000000 = .fin (-5 * 2 ^ 1074) := by decide +kernel
  have hm : Means (.flt 0xC014000000000000) (-5) := means_flt hb (by decide +kernel)
  refine ⟨hm, by decide, ?_, cast_exact_partial .char _ _ hm (by decide) (by simp)⟩
  have ht : Int.tdiv (-5 * 2 ^ 1074) (2 ^ 1074) = -5 := by decide +kernel
  simp only [castInt, IntTy.viaInt, asUnsigned, Schema.asUnsignedNum, hb, ht]
  rfl

/-- C90, finding: a negative number in a text as an unsigned type is taken modulo 2^64. -/
theorem minus_unsigned_false (s : Bytes) (n : Int) (h : Says s n) (hn : -2 ^ 64 < n ∧ n < 0) :
    castInt .ullong (.str s) = .ok (n + 2 ^ 64) := by
  have h1 : -2 ^ 64 < n ∧ n < 2 ^ 64 := by omega
  unfold castInt
  rw [uint_text h, if_pos h1]
  show Out.ok (IntTy.ullong.wrap (UInt64.ofNat (n % 2 ^ 64).toNat).toNat) = _
  rw [UInt64.toNat_ofNat_of_lt' (by show _ < 2 ^ 64; omega)]
  have h2 : (((n % 2 ^ 64).toNat : Nat) : Int) = n % 2 ^ 64 := by omega
  rw [h2, wrap_mod]
  simp only [IntTy.wrap, IntTy.isSigned, IntTy.bits, false_and, Bool.false_eq_true, if_false]
  congr 1
  omega

end Verif.Conv
