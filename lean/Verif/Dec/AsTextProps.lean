import Verif.Dec.AsText
/-!
# What a Float loses as text

The claims of C127.
-/

namespace Verif.Dec
open Verif Verif.Num

/-! ## Six digits -/

theorem dexpo_unique {x : Rat} {e : Int} (hx : 0 < x) (h1 : (10 : Rat) ^ e ≤ x) (h2 : x < 10 ^ (e + 1)) : dexpo x = e := by
  obtain ⟨h3, h4⟩ := dexpo_spec hx
  rcases Int.lt_trichotomy (dexpo x) e with h | h | h
  · have := T_mono (j := dexpo x + 1) (k := e) (by omega); grind
  · exact h
  · have := T_mono (j := e + 1) (k := dexpo x) (by omega); grind

theorem nearInt_eq {w : Rat} {n : Int} (h1 : w - n < 1 / 2) (h2 : n - w < 1 / 2) : nearInt w = n := by
  obtain ⟨h3, h4⟩ := nearInt_half w
  have hc : (1 : Rat) / 2 + 1 / 2 = 1 := by decide +kernel
  have a : ((nearInt w : Int) : Rat) < ((n + 1 : Int) : Rat) := by
    rw [show ((n + 1 : Int) : Rat) = (n : Rat) + 1 by simp]; grind
  have b : ((n : Int) : Rat) < ((nearInt w + 1 : Int) : Rat) := by
    rw [show ((nearInt w + 1 : Int) : Rat) = (nearInt w : Rat) + 1 by simp]; grind
  have a' : nearInt w < n + 1 := by exact_mod_cast a
  have b' : n < nearInt w + 1 := by exact_mod_cast b
  omega

theorem T5 (X : Int) : (10 : Rat) ^ X = 100000 * 10 ^ (X - 5) := by
  rw [show (100000 : Rat) = 10 ^ (5 : Int) by decide +kernel, ← T_add]; congr 1; omega
theorem T6 (X : Int) : (10 : Rat) ^ (X + 1) = 1000000 * 10 ^ (X - 5) := by
  rw [show (1000000 : Rat) = 10 ^ (6 : Int) by decide +kernel, ← T_add]; congr 1; omega
theorem T4 (X : Int) : (10 : Rat) ^ (X - 1) = 10000 * 10 ^ (X - 5) := by
  rw [show (10000 : Rat) = 10 ^ (4 : Int) by decide +kernel, ← T_add]; congr 1; omega
theorem Tm (X : Int) : (10 : Rat) ^ (X - 5) = 10 * 10 ^ (X - 6) := by
  have := T_add 1 (X - 6)
  rw [show 1 + (X - 6) = X - 5 by omega, show (10 : Rat) ^ (1 : Int) = 10 by decide +kernel] at this
  exact this

/-- Numbers close to a number of six digits have its digits. -/
theorem sig_near {q : Nat} {X : Int} {y : Rat} (h1 : 100000 ≤ q) (h2 : q < 1000000) (hy : 0 < y)
    (d1 : (y - (q : Rat) * 10 ^ (X - 5)) * 4000000 ≤ (q : Rat) * 10 ^ (X - 5))
    (d2 : ((q : Rat) * 10 ^ (X - 5) - y) * 4000000 ≤ (q : Rat) * 10 ^ (X - 5)) : sig 6 y = (q, X) := by
  have hu := T_pos (X - 5)
  have hw := cast_div (x := y) hu
  have q1 : (100000 : Rat) ≤ q := by exact_mod_cast h1
  have q2 : (q : Rat) ≤ 999999 := by exact_mod_cast (show q ≤ 999999 by omega)
  have t5 := T5 X
  have t6 := T6 X
  have t4 := T4 X
  have tm := Tm X
  have a1 : (y / 10 ^ (X - 5) - q) * 4000000 ≤ q := by
    refine Rat.not_lt.1 fun h => ?_
    have := Rat.mul_lt_mul_of_pos_right h hu
    generalize y / 10 ^ (X - 5) = w at *
    grind
  have a2 : (q - y / 10 ^ (X - 5)) * 4000000 ≤ q := by
    refine Rat.not_lt.1 fun h => ?_
    have := Rat.mul_lt_mul_of_pos_right h hu
    generalize y / 10 ^ (X - 5) = w at *
    grind
  have qi : (((q : Nat) : Int) : Rat) = (q : Rat) := by rfl
  have up : y < 10 ^ (X + 1) := by
    rw [t6]
    generalize y / 10 ^ (X - 5) = w at *
    have : w < 1000000 := by grind
    have := Rat.mul_lt_mul_of_pos_right this hu
    grind
  by_cases hc : (10 : Rat) ^ X ≤ y
  · have hX := dexpo_unique hy hc up
    have hn : nearInt (y / 10 ^ (X - 5)) = (q : Int) := by
      apply nearInt_eq <;> (rw [qi]; generalize y / 10 ^ (X - 5) = w at *; grind)
    unfold sig
    rw [hX, show X + 1 - ((6 : Nat) : Int) = X - 5 by omega]
    dsimp only
    rw [hn, Int.toNat_natCast, if_neg (by omega)]
  · have hlt : y / 10 ^ (X - 5) < 100000 := by
      rw [Rat.div_lt_iff hu]; grind
    have hq : q = 100000 := by
      have : (q : Rat) < ((100001 : Nat) : Rat) := by
        rw [show ((100001 : Nat) : Rat) = (100001 : Rat) by rfl]
        generalize y / 10 ^ (X - 5) = w at *
        grind
      have : q < 100001 := by exact_mod_cast this
      omega
    subst hq
    have q3 : (((100000 : Nat) : Nat) : Rat) = (100000 : Rat) := by rfl
    rw [q3] at *
    have lo : (10 : Rat) ^ (X - 1) ≤ y := by
      rw [t4]
      generalize y / 10 ^ (X - 5) = w at *
      have : 10000 ≤ w := by grind
      have := Rat.mul_le_mul_of_nonneg_right this (Rat.le_of_lt hu)
      grind
    have hX := dexpo_unique hy lo (by rw [show X - 1 + 1 = X by omega]; grind)
    have hv := T_pos (X - 6)
    have e10 : y / 10 ^ (X - 6) = 10 * (y / 10 ^ (X - 5)) := by
      have h3 := cast_div (x := y) hv
      have h4 : (y / 10 ^ (X - 6) - 10 * (y / 10 ^ (X - 5))) * 10 ^ (X - 6) = 0 := by
        generalize y / 10 ^ (X - 6) = z at *
        generalize y / 10 ^ (X - 5) = w at *
        grind
      rcases Rat.mul_eq_zero.1 h4 with h5 | h5 <;> grind
    have hn : nearInt (y / 10 ^ (X - 6)) = ((1000000 : Nat) : Int) := by
      have e6 : ((((1000000 : Nat) : Int)) : Rat) = (1000000 : Rat) := by rfl
      apply nearInt_eq <;> (rw [e6, e10]; generalize y / 10 ^ (X - 5) = w at *; grind)
    unfold sig
    rw [hX, show X - 1 + 1 - ((6 : Nat) : Int) = X - 6 by omega]
    dsimp only
    rw [hn, Int.toNat_natCast, if_pos (by decide), show X - 1 + 1 = X by omega]

/-- The value of the text of a number. -/
def shown (mag : Rat) : Rat := ((sig 6 mag).1 : Rat) * 10 ^ ((sig 6 mag).2 - 5)

theorem shown_near {mag : Rat} (hm : 0 < mag) : (shown mag - mag) * 200000 ≤ mag ∧ (mag - shown mag) * 200000 ≤ mag := by
  obtain ⟨-, -, d, h1, h2, h3⟩ := sig_spec (P := 6) (by decide) hm
  obtain ⟨h4, -⟩ := dexpo_spec hm
  rw [show (sig 6 mag).2 + 1 - ((6 : Nat) : Int) = (sig 6 mag).2 - 5 by omega] at h1
  rw [show dexpo mag + 1 - ((6 : Nat) : Int) = dexpo mag - 5 by omega] at h2 h3
  have t5 := T5 (dexpo mag)
  unfold shown
  rw [h1]
  grind

theorem near_text {mag y : Rat} (hm : 0 < mag) (hy : 0 < y) (d1 : (y - shown mag) * 4000000 ≤ shown mag)
    (d2 : (shown mag - y) * 4000000 ≤ shown mag) (neg : Bool) : floatText (.fin neg y) = floatText (.fin neg mag) := by
  obtain ⟨h1, h2, -⟩ := sig_spec (P := 6) (by decide) hm
  have := sig_near (by simpa using h1) (by simpa using h2) hy d1 d2
  simp only [floatText, this]
  rw [if_neg (show y ≠ 0 by grind), if_neg (show mag ≠ 0 by grind)]

theorem read_shown {mag : Rat} (hm : 0 < mag) (neg : Bool) (hb : roundMag extended (shown mag) < 2 ^ extended.hi) :
    readLong (floatText (.fin neg mag)) = some (.fin neg (roundMag extended (shown mag))) := by
  obtain ⟨h1, h2, -⟩ := sig_spec (P := 6) (by decide) hm
  obtain ⟨ip, fp, ex, e, a1, a2, a3, a4, a5⟩ := layout_parts (X := (sig 6 mag).2) (by decide) h1 h2
  have hi : (∀ b ∈ ip, isDigit b = true) ∧ ip ≠ [] := by
    rcases a1 with rfl | ⟨d, ds, rfl, -, h⟩
    · exact ⟨by simp; decide, by simp⟩
    · exact ⟨h, by simp⟩
  simp only [floatText]
  rw [if_neg (show mag ≠ 0 by grind), e, strip_parts hi.1 a2 a3]
  have := readLong_parts (sg := if neg then [45] else []) (by cases neg <;> simp) hi.2 hi.1 a2 a3 (V := shown mag)
    (by rw [a4, a5, shown]; congr 2; omega) hb
  rw [this]
  cases neg <;> rfl

/-! ## Rounding -/

theorem half_ulp {p : Format} {x : Rat} (hx : 0 < x) :
    (roundPos p x - x) * 2 ≤ ulp p x ∧ (x - roundPos p x) * 2 ≤ ulp p x := by
  have hu : 0 < ulp p x := B_pos _
  rw [roundPos_eq]
  have hw := cast_div (x := x) hu
  obtain ⟨h1, h2⟩ := nearInt_half (x / ulp p x)
  generalize (nearInt (x / ulp p x) : Rat) = n at *
  generalize ulp p x = u at *
  generalize x / u = w at *
  have k1 := Rat.mul_le_mul_of_nonneg_right h1 (Rat.le_of_lt hu)
  have k2 := Rat.mul_le_mul_of_nonneg_right h2 (Rat.le_of_lt hu)
  constructor <;> grind

/-- Where numbers are not too small, rounding is as exact as there are bits. -/
theorem round_near {p : Format} {x : Rat} (hp : 0 < p.bits) (hx : (2 : Rat) ^ (p.lo + (p.bits : Int) - 1) ≤ x) :
    (roundPos p x - x) * ((2 ^ p.bits : Nat) : Rat) ≤ x ∧ (x - roundPos p x) * ((2 ^ p.bits : Nat) : Rat) ≤ x := by
  have h0 : 0 < x := by have := B_pos (p.lo + (p.bits : Int) - 1); grind
  obtain ⟨h1, h2⟩ := half_ulp (p := p) h0
  have he : p.lo + (p.bits : Int) - 1 ≤ expo x := by
    refine Int.not_lt.1 fun h => ?_
    have := B_mono (j := expo x + 1) (k := p.lo + (p.bits : Int) - 1) (by omega)
    have := (expo_spec h0).2
    grind
  have hl : last p x = expo x + 1 - (p.bits : Int) := by unfold last; omega
  have hs := scaled_normal h0 hp hl
  have hu : 0 < ulp p x := B_pos _
  have hw := cast_div (x := x) hu
  have hpp : ((2 ^ p.bits : Nat) : Rat) = 2 * (((2 ^ (p.bits - 1) : Nat) : Int) : Rat) := by
    rw [show (((2 ^ (p.bits - 1) : Nat) : Int) : Rat) = ((2 ^ (p.bits - 1) : Nat) : Rat) by simp]
    rw [show p.bits = (p.bits - 1) + 1 by omega, Nat.pow_succ, Rat.natCast_mul]
    simp only [Nat.add_sub_cancel]
    rw [Rat.mul_comm]; rfl
  rw [hpp]
  have hB : (0 : Rat) ≤ (((2 ^ (p.bits - 1) : Nat) : Int) : Rat) := by
    exact_mod_cast Nat.zero_le _
  generalize (((2 ^ (p.bits - 1) : Nat) : Int) : Rat) = B at *
  generalize roundPos p x = r at *
  generalize ulp p x = u at *
  generalize x / u = w at *
  have k0 := Rat.mul_le_mul_of_nonneg_right hs (Rat.le_of_lt hu)
  have k1 := Rat.mul_le_mul_of_nonneg_right h1 hB
  have k2 := Rat.mul_le_mul_of_nonneg_right h2 hB
  constructor <;> grind

theorem shown_le {mag : Rat} (hm : 0 < mag) (h : mag < 2 ^ (1024 : Int)) : shown mag ≤ 179769 * 10 ^ (303 : Int) := by
  obtain ⟨g1, g2⟩ := dexpo_spec hm
  obtain ⟨hq1, -, d, h1, h2, h3⟩ := sig_spec (P := 6) (by decide) hm
  rw [show (sig 6 mag).2 + 1 - ((6 : Nat) : Int) = (sig 6 mag).2 - 5 by omega] at h1
  rw [show dexpo mag + 1 - ((6 : Nat) : Int) = dexpo mag - 5 by omega] at h2 h3
  have e309 : (2 : Rat) ^ (1024 : Int) < 10 ^ (309 : Int) := by decide +kernel
  have hd : dexpo mag ≤ 308 := by
    refine Int.not_lt.1 fun hlt => ?_
    have := T_mono (j := 309) (k := dexpo mag) (by omega)
    grind
  by_cases hc : dexpo mag = 308
  · have e1 : (2 : Rat) ^ (1024 : Int) < 1797694 / 10 * 10 ^ (303 : Int) := by decide +kernel
    have hu := T_pos 303
    have hw := cast_div (x := mag) hu
    have hlt : mag / 10 ^ (303 : Int) < 1797694 / 10 := by rw [Rat.div_lt_iff hu]; grind
    have hn := (nearInt_half (mag / 10 ^ (303 : Int))).1
    have hle : nearInt (mag / 10 ^ (303 : Int)) ≤ 179769 := by
      have : ((nearInt (mag / 10 ^ (303 : Int)) : Int) : Rat) < ((179770 : Int) : Rat) := by
        rw [show ((179770 : Int) : Rat) = (1797694 / 10 + 1 / 2 + 1 / 10 : Rat) by decide +kernel]
        grind
      generalize nearInt (mag / 10 ^ (303 : Int)) = n at this ⊢
      have := Rat.intCast_lt_intCast.1 this
      omega
    have hs : sig 6 mag = ((nearInt (mag / 10 ^ (303 : Int))).toNat, 308) := by
      unfold sig
      rw [hc, show (308 : Int) + 1 - ((6 : Nat) : Int) = 303 by decide]
      dsimp only
      rw [if_neg (by omega)]
    rw [shown, hs]
    show _ * (10 : Rat) ^ ((308 : Int) - 5) ≤ _
    rw [show (308 : Int) - 5 = 303 by decide]
    refine Rat.mul_le_mul_of_nonneg_right ?_ (Rat.le_of_lt hu)
    have : (((nearInt (mag / 10 ^ (303 : Int))).toNat : Nat) : Rat) ≤ ((179769 : Nat) : Rat) := by
      generalize nearInt (mag / 10 ^ (303 : Int)) = n at hle
      exact Rat.natCast_le_natCast.2 (by omega)
    exact this
  · have m1 := T_mono (j := dexpo mag + 1) (k := 308) (by omega)
    have m2 := T_mono (j := dexpo mag - 5) (k := 303) (by omega)
    have e1 : (10 : Rat) ^ (308 : Int) = 100000 * 10 ^ (303 : Int) := by decide +kernel
    have hu := T_pos 303
    unfold shown
    rw [h1]
    generalize (10 : Rat) ^ (303 : Int) = u at *
    grind

theorem round_near_small {x : Rat} (hx : (2 : Rat) ^ (-1051 : Int) ≤ x) :
    (roundPos double x - x) * 16777216 ≤ x ∧ (x - roundPos double x) * 16777216 ≤ x := by
  have h0 : 0 < x := by have := B_pos (-1051); grind
  by_cases h : (2 : Rat) ^ (-1022 : Int) ≤ x
  · obtain ⟨t1, t2⟩ := round_near (p := double) (x := x) (by decide) (by
      show (2 : Rat) ^ (-1074 + 53 - 1 : Int) ≤ _
      rw [show (-1074 + 53 - 1 : Int) = -1022 by decide]; exact h)
    have n53 : ((2 ^ double.bits : Nat) : Rat) = 9007199254740992 := by rfl
    rw [n53] at t1 t2
    constructor <;> grind
  · obtain ⟨t1, t2⟩ := half_ulp (p := double) h0
    have he : expo x < -1022 := by
      refine Int.not_le.1 fun hle => ?_
      have := B_mono hle
      have := (expo_spec h0).1
      grind
    have hl : last double x = -1074 := by
      show max (expo x + 1 - ((53 : Nat) : Int)) (-1074) = -1074
      omega
    have hu : ulp double x = 2 ^ (-1074 : Int) := by rw [ulp, hl]
    rw [hu] at t1 t2
    have e : (2 : Rat) ^ (-1051 : Int) = 8388608 * 2 ^ (-1074 : Int) := by decide +kernel
    constructor <;> grind

/-! ## The claims -/

/-- C127.  A number of 2^-1050 and more that is no larger than doubles can be comes back as a number with the same text, which differs
by no more than a hundred-thousandth. -/
theorem text_comes_back {mag : Rat} (neg : Bool) (h1 : (2 : Rat) ^ (-1050 : Int) ≤ mag) (h2 : mag < 2 ^ (1024 : Int)) :
    ∃ y, textDouble (floatText (.fin neg mag)) = some (.fin neg y) ∧ floatText (.fin neg y) = floatText (.fin neg mag) ∧
      (y - mag) * 100000 ≤ mag ∧ (mag - y) * 100000 ≤ mag := by
  have b1 := B_pos (-1050)
  have hm : 0 < mag := by grind
  have e1 : (2 : Rat) ^ (-1050 : Int) = 2 * 2 ^ (-1051 : Int) := by decide +kernel
  have e2 : (179769 : Rat) * 10 ^ (303 : Int) * (1 + 1 / 10000000) < 2 ^ (1024 : Int) := by decide +kernel
  have e3 := B_mono (j := -16445 + 64 - 1) (k := -1051) (by decide)
  have e4 := B_mono (j := 1024) (k := 16384) (by decide)
  have hle := shown_le hm h2
  obtain ⟨s1, s2⟩ := shown_near hm
  have n64 : ((2 ^ extended.bits : Nat) : Rat) = 18446744073709551616 := by rfl
  have hs : (0 : Rat) < shown mag := by grind
  obtain ⟨r1, r2⟩ := round_near (p := extended) (x := shown mag) (by decide) (by
    show (2 : Rat) ^ (-16445 + 64 - 1 : Int) ≤ _; grind)
  rw [n64] at r1 r2
  have hL : roundMag extended (shown mag) = roundPos extended (shown mag) := by rw [roundMag, if_neg (by grind)]
  have l0 : 0 < roundPos extended (shown mag) := by grind
  obtain ⟨t1, t2⟩ := round_near_small (x := roundPos extended (shown mag)) (by grind)
  have hD : roundMag double (roundPos extended (shown mag)) = roundPos double (roundPos extended (shown mag)) := by
    rw [roundMag, if_neg (by grind)]
  have hr := read_shown hm neg (by rw [hL]; show _ < (2 : Rat) ^ (16384 : Int); grind)
  refine ⟨roundPos double (roundPos extended (shown mag)), ?_, ?_, ?_, ?_⟩
  · rw [textDouble, hr, hL, Option.map_some, narrow, hD, fit, if_pos]
    show _ < (2 : Rat) ^ (1024 : Int)
    grind
  · exact near_text hm (by grind) (by grind) (by grind) neg
  · grind
  · grind

theorem small_long {mag : Rat} (h1 : (2 : Rat) ^ (-1074 : Int) ≤ mag) (h2 : mag < 2 ^ (-1050 : Int)) (neg : Bool) :
    ∃ L, 0 < L ∧ L < 2 ^ (-1040 : Int) ∧ (L - mag) * 199998 ≤ mag ∧ (mag - L) * 199998 ≤ mag ∧
      textDouble (floatText (.fin neg mag)) = some (.fin neg (roundPos double L)) := by
  have b1 := B_pos (-1074)
  have hm : 0 < mag := by grind
  have e1 : (2 : Rat) ^ (-1074 : Int) = 2 * 2 ^ (-1075 : Int) := by decide +kernel
  have e2 : (2 : Rat) ^ (-1040 : Int) = 1024 * 2 ^ (-1050 : Int) := by decide +kernel
  have e3 := B_mono (j := -16445 + 64 - 1) (k := -1075) (by decide)
  have e4 := B_mono (j := -1040) (k := 16384) (by decide)
  obtain ⟨s1, s2⟩ := shown_near hm
  have n64 : ((2 ^ extended.bits : Nat) : Rat) = 18446744073709551616 := by rfl
  have hs : (0 : Rat) < shown mag := by grind
  obtain ⟨r1, r2⟩ := round_near (p := extended) (x := shown mag) (by decide) (by
    show (2 : Rat) ^ (-16445 + 64 - 1 : Int) ≤ _; grind)
  rw [n64] at r1 r2
  have hL : roundMag extended (shown mag) = roundPos extended (shown mag) := by rw [roundMag, if_neg (by grind)]
  have l0 : 0 < roundPos extended (shown mag) := by grind
  have l1 : roundPos extended (shown mag) < 2 ^ (-1040 : Int) := by grind
  have hr := read_shown hm neg (by rw [hL]; show _ < (2 : Rat) ^ (16384 : Int); grind)
  refine ⟨roundPos extended (shown mag), l0, l1, by grind, by grind, ?_⟩
  have hD : roundMag double (roundPos extended (shown mag)) = roundPos double (roundPos extended (shown mag)) := by
    rw [roundMag, if_neg (by grind)]
  have hb : roundPos double (roundPos extended (shown mag)) < 2 ^ (1024 : Int) := by
    have hf : Fits double ((1 : Int) * 2 ^ (-1040 : Int)) := ⟨1, -1040, by decide, by decide, rfl⟩
    have e5 : ((1 : Int) : Rat) * 2 ^ (-1040 : Int) = 2 ^ (-1040 : Int) := by decide +kernel
    rw [e5] at hf
    have h := round_mono (p := double) (by decide) l0 (Rat.le_of_lt l1)
    rw [round_exact (by decide) (B_pos _) hf] at h
    have e6 : (2 : Rat) ^ (-1040 : Int) < 2 ^ (1024 : Int) := by decide +kernel
    grind
  rw [textDouble, hr, hL, Option.map_some, narrow, hD, fit, if_pos]
  exact hb

/-- C127.  The smallest doubles, up to 2^16 times the smallest of all, come back as they were. -/
theorem tiny_comes_back {k : Nat} (neg : Bool) (h0 : 0 < k) (h : k < 2 ^ 16) :
    textDouble (floatText (.fin neg ((k : Rat) * 2 ^ (-1074 : Int)))) = some (.fin neg ((k : Rat) * 2 ^ (-1074 : Int))) := by
  have hu := B_pos (-1074)
  have k1 : (1 : Rat) ≤ k := by exact_mod_cast h0
  have k2 : (k : Rat) < 65536 := by exact_mod_cast h
  have g1 := Rat.mul_le_mul_of_nonneg_right k1 (Rat.le_of_lt hu)
  have g2 := Rat.mul_lt_mul_of_pos_right k2 hu
  have e1 : (2 : Rat) ^ (-1050 : Int) = 16777216 * 2 ^ (-1074 : Int) := by decide +kernel
  obtain ⟨L, l0, l1, l2, l3, hr⟩ := small_long (mag := (k : Rat) * 2 ^ (-1074 : Int)) (by grind) (by grind) neg
  rw [hr]
  have he : expo L < -1040 := by
    refine Int.not_le.1 fun hle => ?_
    have := B_mono hle
    have := (expo_spec l0).1
    grind
  have hl : last double L = -1074 := by
    show max (expo L + 1 - ((53 : Nat) : Int)) (-1074) = -1074
    omega
  have hu' : ulp double L = 2 ^ (-1074 : Int) := by rw [ulp, hl]
  have hw := cast_div (x := L) hu
  have hn : nearInt (L / 2 ^ (-1074 : Int)) = (k : Int) := by
    have ki : (((k : Nat) : Int) : Rat) = (k : Rat) := by rfl
    have a1 : (L / 2 ^ (-1074 : Int) - k) * 199998 ≤ k := by
      refine Rat.not_lt.1 fun h => ?_
      have := Rat.mul_lt_mul_of_pos_right h hu
      generalize L / 2 ^ (-1074 : Int) = w at *
      grind
    have a2 : (k - L / 2 ^ (-1074 : Int)) * 199998 ≤ k := by
      refine Rat.not_lt.1 fun h => ?_
      have := Rat.mul_lt_mul_of_pos_right h hu
      generalize L / 2 ^ (-1074 : Int) = w at *
      grind
    apply nearInt_eq <;> (rw [ki]; generalize L / 2 ^ (-1074 : Int) = w at *; grind)
  rw [roundPos_eq, hu', hn]
  rfl

/-- C127.  Every positive or negative double comes back as a double that differs by little more than a hundred-thousandth. -/
theorem double_comes_near {mag : Rat} (neg : Bool) (h0 : 0 < mag) (hf : Fits double mag) (h2 : mag < 2 ^ (1024 : Int)) :
    ∃ y, textDouble (floatText (.fin neg mag)) = some (.fin neg y) ∧ (y - mag) * 99999 ≤ mag ∧ (mag - y) * 99999 ≤ mag := by
  by_cases hb : (2 : Rat) ^ (-1050 : Int) ≤ mag
  · obtain ⟨y, h3, -, h5, h6⟩ := text_comes_back neg hb h2
    exact ⟨y, h3, by grind, by grind⟩
  · have hlo : (2 : Rat) ^ (-1074 : Int) ≤ mag := by
      obtain ⟨m, j, -, hj, rfl⟩ := hf
      have hj' : (-1074 : Int) ≤ j := hj
      have hm : (1 : Rat) ≤ m := by
        have : 0 < m := by
          refine Int.not_le.1 fun hle => ?_
          have : (m : Rat) ≤ 0 := by exact_mod_cast hle
          have := Rat.mul_le_mul_of_nonneg_right this (Rat.le_of_lt (B_pos j))
          grind
        exact_mod_cast this
      have := Rat.mul_le_mul_of_nonneg_right hm (Rat.le_of_lt (B_pos j))
      have := B_mono hj'
      grind
    obtain ⟨L, l0, l1, l2, l3, hr⟩ := small_long hlo (by grind) neg
    have hn := (round_nearest (p := double) (by decide) l0).2 mag hf
    refine ⟨_, hr, ?_, ?_⟩
    · generalize roundPos double L = D at *
      simp only [Rat.abs] at hn
      split at hn <;> split at hn <;> grind
    · generalize roundPos double L = D at *
      simp only [Rat.abs] at hn
      split at hn <;> split at hn <;> grind

/-- C127.  A double whose value has no more than six decimal digits comes back as it was. -/
theorem short_comes_back {m : Nat} {k : Int} (neg : Bool) (h0 : 0 < m) (h6 : m < 1000000) (hf : Fits double ((m : Rat) * 10 ^ k))
    (hb : (m : Rat) * 10 ^ k < 2 ^ (1024 : Int)) :
    textDouble (floatText (.fin neg ((m : Rat) * 10 ^ k))) = some (.fin neg ((m : Rat) * 10 ^ k)) := by
  have hm : (0 : Rat) < (m : Rat) * 10 ^ k := Rat.mul_pos (by exact_mod_cast h0) (T_pos k)
  obtain ⟨g1, g2⟩ := dlog_spec h0
  have hd : dlog m ≤ 5 := by
    refine Nat.not_lt.1 fun h => ?_
    have := Nat.pow_le_pow_right (n := 10) (by decide) (show 6 ≤ dlog m from h)
    omega
  have hq : ((m * 10 ^ (5 - dlog m) : Nat) : Rat) * 10 ^ ((k + dlog m) - 5) = (m : Rat) * 10 ^ k := by
    rw [Rat.natCast_mul, ← T_nat, Rat.mul_assoc, ← T_add]
    congr 2
    omega
  have hpw : 10 ^ dlog m * 10 ^ (5 - dlog m) = 100000 := by rw [← Nat.pow_add, show dlog m + (5 - dlog m) = 5 by omega]
  have hpp : 0 < 10 ^ (5 - dlog m) := Nat.pow_pos (by decide)
  have hsig := sig_near (q := m * 10 ^ (5 - dlog m)) (X := k + dlog m) (y := (m : Rat) * 10 ^ k)
    (by rw [← hpw]; exact Nat.mul_le_mul_right _ g1)
    (by
      have := Nat.mul_lt_mul_of_pos_right g2 hpp
      rw [Nat.pow_succ, Nat.mul_right_comm, hpw] at this
      omega)
    hm (by rw [hq]; grind) (by rw [hq]; grind)
  have hsh : shown ((m : Rat) * 10 ^ k) = (m : Rat) * 10 ^ k := by rw [shown, hsig]; exact hq
  have hx : Fits extended ((m : Rat) * 10 ^ k) := by
    obtain ⟨a, j, ha, hj, e⟩ := hf
    refine ⟨a, j, Nat.lt_of_lt_of_le ha (by decide), ?_, e⟩
    have : (-1074 : Int) ≤ j := hj
    show (-16445 : Int) ≤ j
    omega
  have e4 := B_mono (j := 1024) (k := 16384) (by decide)
  have hL : roundMag extended (shown ((m : Rat) * 10 ^ k)) = (m : Rat) * 10 ^ k := by
    rw [hsh, roundMag, if_neg (by grind), round_exact (by decide) hm hx]
  have hr := read_shown hm neg (by rw [hL]; show _ < (2 : Rat) ^ (16384 : Int); grind)
  rw [textDouble, hr, hL, Option.map_some, narrow, roundMag, if_neg (by grind), round_exact (by decide) hm hf, fit, if_pos]
  exact hb

/-- C127.  Zeros come back with their sign. -/
theorem zero_comes_back (neg : Bool) : textDouble (floatText (.fin neg 0)) = some (.fin neg 0) := by
  cases neg <;> decide +kernel

/-- C127 is false of digits beyond the sixth: 1234567.0 becomes "1.23457e+06" and comes back as 1234570. -/
theorem digits_lost_false :
    floatText (.fin false 1234567) = [49, 46, 50, 51, 52, 53, 55, 101, 43, 48, 54] ∧
    textDouble (floatText (.fin false 1234567)) = some (.fin false 1234570) := by
  decide +kernel

/-- C127 is false even where six digits tell which double it is: 0.002877 is the double nearest to 2877 / 1000000, its text is
"0.002877", and `AsDouble` of this text is the next double, since the text is rounded to a `long double` first. -/
theorem rounded_twice_false :
    roundMag double (2877 * 10 ^ (-6 : Int)) = 0x1791819d2391d5 * 2 ^ (-61 : Int) ∧
    floatText (.fin false (0x1791819d2391d5 * 2 ^ (-61 : Int))) = [48, 46, 48, 48, 50, 56, 55, 55] ∧
    textDouble [48, 46, 48, 48, 50, 56, 55, 55] = some (.fin false (0x1791819d2391d6 * 2 ^ (-61 : Int))) := by
  decide +kernel

/-- C127 is false of infinity and NaN: their texts convert to no number. -/
theorem infinity_text_false (neg : Bool) : textDouble (floatText (.inf neg)) = none ∧ textDouble (floatText .nan) = none := by
  cases neg <;> decide +kernel

/-! ## Cases -/

example : ∃ y, textDouble (floatText (.fin true (1 / 3))) = some (.fin true y) ∧ floatText (.fin true y) = floatText (.fin true (1 / 3)) ∧
    (y - 1 / 3) * 100000 ≤ 1 / 3 ∧ (1 / 3 - y) * 100000 ≤ 1 / 3 :=
  text_comes_back true (by decide +kernel) (by decide +kernel)

/-- Three times the smallest double, and a double of 2^-1052 and 2^-1074. -/
example : textDouble (floatText (.fin true ((3 : Nat) * 2 ^ (-1074 : Int)))) = some (.fin true ((3 : Nat) * 2 ^ (-1074 : Int))) :=
  tiny_comes_back true (by decide) (by decide)
example : ∃ y, textDouble (floatText (.fin false (((2 ^ 22 + 1 : Int) : Rat) * 2 ^ (-1074 : Int)))) = some (.fin false y) :=
  let ⟨y, h, _⟩ := double_comes_near false (mag := ((2 ^ 22 + 1 : Int) : Rat) * 2 ^ (-1074 : Int)) (by decide +kernel)
    ⟨2 ^ 22 + 1, -1074, by decide, by decide, rfl⟩ (by decide +kernel)
  ⟨y, h⟩

/-- The largest double. -/
example : ∃ y, textDouble (floatText (.fin false ((2 ^ 53 - 1) * 2 ^ (971 : Int)))) = some (.fin false y) :=
  let ⟨y, h, _⟩ := text_comes_back false (mag := (2 ^ 53 - 1) * 2 ^ (971 : Int)) (by decide +kernel) (by decide +kernel)
  ⟨y, h⟩

example : textDouble (floatText (.fin false ((625 : Nat) * 10 ^ (-4 : Int)))) = some (.fin false ((625 : Nat) * 10 ^ (-4 : Int))) :=
  short_comes_back false (by decide) (by decide) ⟨1, -4, by decide, by decide, by decide +kernel⟩ (by decide +kernel)

example : floatText (.fin true ((625 : Nat) * 10 ^ (-4 : Int))) = [45, 48, 46, 48, 54, 50, 53] := by decide +kernel
example : floatText (.fin false 120) = [49, 50, 48] := by decide +kernel

end Verif.Dec
