import Verif.Dec.Model
import Verif.Num.Props
/-!
# Seventeen digits determine a double
-/

namespace Verif.Dec
open Verif Verif.Num

theorem ten_ne : (10 : Rat) ≠ 0 := by decide
theorem T_pos (k : Int) : (0 : Rat) < 10 ^ k := Rat.zpow_pos (by decide)
theorem T_add (j k : Int) : (10 : Rat) ^ (j + k) = 10 ^ j * 10 ^ k := Rat.zpow_add ten_ne j k
theorem T_nat (n : Nat) : (10 : Rat) ^ (n : Int) = ((10 ^ n : Nat) : Rat) := by
  rw [Rat.zpow_natCast, Rat.natCast_pow]; rfl

theorem T_one_le {k : Int} (h : 0 ≤ k) : (1 : Rat) ≤ 10 ^ k := by
  obtain ⟨n, rfl⟩ := Int.eq_ofNat_of_zero_le h
  rw [T_nat]
  exact_mod_cast Nat.one_le_pow _ _ (by decide)

theorem T_mono {j k : Int} (h : j ≤ k) : (10 : Rat) ^ j ≤ 10 ^ k := by
  have e : k = j + (k - j) := by omega
  rw [e, T_add]
  have := Rat.mul_le_mul_of_nonneg_left (T_one_le (k := k - j) (by omega)) (Rat.le_of_lt (T_pos j))
  grind

theorem dlogAux_spec : ∀ (f n : Nat), 0 < n → n < 2 ^ (f + 1) → 10 ^ dlogAux f n ≤ n ∧ n < 10 ^ (dlogAux f n + 1)
  | 0, n, h0, h => by simp [dlogAux]; omega
  | f + 1, n, h0, h => by
    rw [dlogAux]
    split
    · simp; omega
    · obtain ⟨h1, h2⟩ := dlogAux_spec f (n / 10) (by omega) (by rw [Nat.pow_succ] at h; omega)
      rw [Nat.pow_succ, Nat.pow_succ 10 (_ + 1)]
      omega

theorem dlog_spec {n : Nat} (h : 0 < n) : 10 ^ dlog n ≤ n ∧ n < 10 ^ (dlog n + 1) :=
  dlogAux_spec _ _ h Nat.lt_log2_self

/-- A positive number is numerator over denominator. -/
theorem num_den {x : Rat} (hx : 0 < x) : 0 < x.num.natAbs ∧ x * (x.den : Rat) = (x.num.natAbs : Rat) := by
  have hn : 0 < x.num := by
    have h1 : 0 ≤ x.num := Rat.num_nonneg.2 (Rat.le_of_lt hx)
    have h2 : x.num ≠ 0 := fun h => by rw [Rat.num_eq_zero.1 h] at hx; exact absurd hx (by decide)
    omega
  refine ⟨by omega, ?_⟩
  have hd : 0 < x.den := x.den_pos
  have h1 : x.num = (x.num.natAbs : Int) := by omega
  have h2 : (x.den : Rat) ≠ 0 := by exact_mod_cast Nat.pos_iff_ne_zero.1 hd
  have h3 : x = (x.num : Rat) / (x.den : Rat) := by
    rw [← Rat.mkRat_eq_div, Rat.mkRat_self]
  have h4 : x * (x.den : Rat) = (x.num : Rat) := by
    have h5 : ∀ d : Nat, (d : Rat) ≠ 0 → x = (x.num : Rat) / (d : Rat) → x * (d : Rat) = (x.num : Rat) := by
      intro d hd e
      generalize x.num = n at e
      rw [e]
      exact Rat.div_mul_cancel hd
    exact h5 _ h2 h3
  rw [h4]
  exact_mod_cast congrArg (Int.cast (R := Rat)) h1

/-- What `dexpo` finds. -/
theorem dexpo_spec {x : Rat} (hx : 0 < x) : (10 : Rat) ^ dexpo x ≤ x ∧ x < 10 ^ (dexpo x + 1) := by
  obtain ⟨ha, e⟩ := num_den hx
  have hd : 0 < x.den := x.den_pos
  have hd' : (0 : Rat) < x.den := by exact_mod_cast hd
  have n1 : (10 : Rat) ^ (dlog x.num.natAbs : Int) ≤ x.num.natAbs := by
    rw [T_nat]; exact_mod_cast (dlog_spec ha).1
  have n2 : (x.num.natAbs : Rat) < 10 ^ ((dlog x.num.natAbs : Int) + 1) := by
    rw [show (dlog x.num.natAbs : Int) + 1 = ((dlog x.num.natAbs + 1 : Nat) : Int) by omega, T_nat]
    exact_mod_cast (dlog_spec ha).2
  have d1 : (10 : Rat) ^ (dlog x.den : Int) ≤ x.den := by
    rw [T_nat]; exact_mod_cast (dlog_spec hd).1
  have d2 : (x.den : Rat) < 10 ^ ((dlog x.den : Int) + 1) := by
    rw [show (dlog x.den : Int) + 1 = ((dlog x.den + 1 : Nat) : Int) by omega, T_nat]
    exact_mod_cast (dlog_spec hd).2
  rw [← e] at n1 n2
  generalize hA : (dlog x.num.natAbs : Int) = a at *
  generalize hb : (dlog x.den : Int) = b at *
  have up : x < 10 ^ (a - b + 1) := by
    apply Rat.not_le.1
    intro h
    have h1 := Rat.mul_le_mul_of_nonneg_right h (Rat.le_of_lt hd')
    have h2 := Rat.mul_le_mul_of_nonneg_left d1 (Rat.le_of_lt (T_pos (a - b + 1)))
    rw [← T_add, show a - b + 1 + b = a + 1 by omega] at h2
    grind
  have lo : (10 : Rat) ^ (a - b - 1) ≤ x := by
    apply Rat.not_lt.1
    intro h
    have h1 := (Rat.mul_lt_mul_right hd').2 h
    have h2 := (Rat.mul_lt_mul_left (T_pos (a - b - 1))).2 d2
    rw [← T_add, show a - b - 1 + (b + 1) = a by omega] at h2
    grind
  unfold dexpo
  dsimp only
  rw [hA, hb]
  by_cases h : (10 : Rat) ^ (a - b) ≤ x
  · rw [if_pos h]; exact ⟨h, up⟩
  · rw [if_neg h]
    refine ⟨lo, ?_⟩
    rw [show a - b - 1 + 1 = a - b by omega]
    exact Rat.not_le.1 h

/-- The digits have their number, and the number they stand for is close. -/
theorem sig_spec {P : Nat} (hP : 0 < P) {x : Rat} (hx : 0 < x) :
    10 ^ (P - 1) ≤ (sig P x).1 ∧ (sig P x).1 < 10 ^ P ∧
    ∃ d : Rat, (((sig P x).1 : Nat) : Rat) * 10 ^ ((sig P x).2 + 1 - (P : Int)) = x + d ∧
      -(10 ^ (dexpo x + 1 - (P : Int))) ≤ 2 * d ∧ 2 * d ≤ 10 ^ (dexpo x + 1 - (P : Int)) := by
  obtain ⟨h1, h2⟩ := dexpo_spec hx
  have hu := T_pos (dexpo x + 1 - (P : Int))
  have hy1 : (((10 ^ (P - 1) : Nat) : Int) : Rat) ≤ x / 10 ^ (dexpo x + 1 - (P : Int)) := by
    refine Rat.not_lt.1 fun h => ?_
    rw [Rat.div_lt_iff hu, cast_nat, ← T_nat, ← T_add] at h
    rw [show (((P - 1 : Nat) : Int) + (dexpo x + 1 - (P : Int))) = dexpo x by omega] at h
    grind
  have hy2 : x / 10 ^ (dexpo x + 1 - (P : Int)) < (((10 ^ P : Nat) : Int) : Rat) := by
    rw [Rat.div_lt_iff hu, cast_nat, ← T_nat, ← T_add]
    rw [show ((P : Int) + (dexpo x + 1 - (P : Int))) = dexpo x + 1 by omega]
    exact h2
  obtain ⟨hq1, hq2⟩ := nearInt_between hy1 hy2
  obtain ⟨hn1, hn2⟩ := nearInt_half (x / 10 ^ (dexpo x + 1 - (P : Int)))
  have hxy := cast_div (x := x) hu
  have hpp : 10 ^ P = 10 ^ (P - 1) * 10 := by rw [← Nat.pow_succ]; congr 1; omega
  have hp1 : 0 < 10 ^ (P - 1) := Nat.pow_pos (by decide)
  have hval : (((nearInt (x / 10 ^ (dexpo x + 1 - (P : Int)))).toNat : Nat) : Rat) =
      (nearInt (x / 10 ^ (dexpo x + 1 - (P : Int))) : Rat) := by
    rw [← cast_nat, Int.toNat_of_nonneg (by omega)]
  have close : ∃ d : Rat, (((nearInt (x / 10 ^ (dexpo x + 1 - (P : Int)))).toNat : Nat) : Rat) * 10 ^ (dexpo x + 1 - (P : Int)) = x + d ∧
      -(10 ^ (dexpo x + 1 - (P : Int))) ≤ 2 * d ∧ 2 * d ≤ 10 ^ (dexpo x + 1 - (P : Int)) := by
    rw [hval]
    generalize (10 : Rat) ^ (dexpo x + 1 - (P : Int)) = u at *
    generalize (nearInt (x / u) : Rat) = n at *
    generalize x / u = y at *
    have k1 := Rat.mul_le_mul_of_nonneg_right hn1 (Rat.le_of_lt hu)
    have k2 := Rat.mul_le_mul_of_nonneg_right hn2 (Rat.le_of_lt hu)
    refine ⟨n * u - x, by grind, ?_, ?_⟩
    · grind
    · grind
  unfold sig
  dsimp only
  split
  · next hq =>
    dsimp only
    refine ⟨Nat.le_refl _, by omega, ?_⟩
    rw [hq] at close
    rw [show dexpo x + 1 + 1 - (P : Int) = 1 + (dexpo x + 1 - (P : Int)) by omega, T_add, ← Rat.mul_assoc]
    rw [show (((10 ^ (P - 1) : Nat) : Rat)) * 10 ^ (1 : Int) = ((10 ^ P : Nat) : Rat) by
      rw [hpp, Rat.natCast_mul]; rfl]
    exact close
  · next hq =>
    dsimp only
    exact ⟨by omega, by omega, close⟩

/-- Two different numbers with 53 bits are not too close. -/
theorem gap {p : Format} {x s : Rat} (hb : p.bits = 53) (hx : 0 < x) (fx : Fits p x) (fs : Fits p s) (hne : s ≠ x) :
    x < ((2 ^ 53 + 1 : Nat) : Rat) * (x - s).abs := by
  obtain ⟨m, j, hm, -, rfl⟩ := fx
  obtain ⟨n, k, hn, -, rfl⟩ := fs
  rw [hb] at hm hn
  have hm' : (m : Rat) < ((2 ^ 53 : Nat) : Rat) := by
    rw [← cast_nat]; exact_mod_cast (show m < ((2 ^ 53 : Nat) : Int) by omega)
  have hn1 : (n : Rat) < ((2 ^ 53 : Nat) : Rat) := by
    rw [← cast_nat]; exact_mod_cast (show n < ((2 ^ 53 : Nat) : Int) by omega)
  have hn2 : -((2 ^ 53 : Nat) : Rat) < (n : Rat) := by
    rw [← cast_nat]
    have := (show -((2 ^ 53 : Nat) : Int) < n by omega)
    exact_mod_cast this
  rw [show ((2 ^ 53 + 1 : Nat) : Rat) = ((2 ^ 53 : Nat) : Rat) + 1 from Rat.natCast_add _ _]
  have hA : (0 : Rat) < ((2 ^ 53 : Nat) : Rat) := by exact_mod_cast Nat.two_pow_pos 53
  -- a whole number of units that is not zero is at least one unit
  have whole : ∀ (w : Int) (i : Int), (w : Rat) * 2 ^ i ≠ 0 → (2 : Rat) ^ i ≤ ((w : Rat) * 2 ^ i).abs := by
    intro w i hw
    have hi := B_pos i
    have h0 : w ≠ 0 := by rintro rfl; apply hw; simp
    rw [abs_mul_pos hi]
    have h1 : (1 : Rat) ≤ (w : Rat).abs := by
      simp only [Rat.abs]
      split
      · next hz =>
        have : 0 ≤ w := by exact_mod_cast hz
        exact_mod_cast (show 1 ≤ w by omega)
      · next hz =>
        have : ¬ 0 ≤ w := fun h => hz (by exact_mod_cast h)
        have : (1 : Int) ≤ -w := by omega
        exact_mod_cast this
    have := Rat.mul_le_mul_of_nonneg_right h1 (Rat.le_of_lt hi)
    grind
  rcases Int.le_total j k with h | h
  · obtain ⟨t, ht⟩ := Int.eq_ofNat_of_zero_le (show 0 ≤ k - j by omega)
    have e : (m : Rat) * 2 ^ j - n * 2 ^ k = ((m - n * (2 ^ t : Nat) : Int) : Rat) * 2 ^ j := by
      rw [show k = (t : Int) + j by omega, B_add, B_nat, Rat.intCast_sub, Rat.intCast_mul, cast_nat]
      grind
    have hd : (m : Rat) * 2 ^ j - n * 2 ^ k ≠ 0 := fun h => hne (by grind)
    have h1 := whole (m - n * (2 ^ t : Nat)) j (by rw [← e]; exact hd)
    rw [← e] at h1
    have h2 := (Rat.mul_lt_mul_right (B_pos j)).2 hm'
    have h3 := Rat.mul_le_mul_of_nonneg_left h1 (Rat.le_of_lt hA)
    have hj := B_pos j
    generalize ((2 ^ 53 : Nat) : Rat) = A at *
    grind
  · obtain ⟨t, ht⟩ := Int.eq_ofNat_of_zero_le (show 0 ≤ j - k by omega)
    have e : (m : Rat) * 2 ^ j - n * 2 ^ k = ((m * (2 ^ t : Nat) - n : Int) : Rat) * 2 ^ k := by
      rw [show j = (t : Int) + k by omega, B_add, B_nat, Rat.intCast_sub, Rat.intCast_mul, cast_nat]
      grind
    have hd : (m : Rat) * 2 ^ j - n * 2 ^ k ≠ 0 := fun h => hne (by grind)
    have h1 := whole (m * (2 ^ t : Nat) - n) k (by rw [← e]; exact hd)
    rw [← e] at h1
    have h2 := (Rat.mul_lt_mul_right (B_pos k)).2 hn1
    have h3 := Rat.mul_le_mul_of_nonneg_left h1 (Rat.le_of_lt hA)
    have hk := B_pos k
    have h4 : (m : Rat) * 2 ^ j - n * 2 ^ k ≤ ((m : Rat) * 2 ^ j - n * 2 ^ k).abs := by simp only [Rat.abs]; grind
    generalize ((m : Rat) * 2 ^ j - n * 2 ^ k).abs = g at *
    generalize ((2 ^ 53 : Nat) : Rat) = A at *
    grind

/-- Seventeen significant digits, and any more, lead back to the double. -/
theorem digits_back {P : Nat} (hP : 17 ≤ P) {x : Rat} (hx : 0 < x) (hf : Fits double x) :
    roundPos double (((sig P x).1 : Rat) * 10 ^ ((sig P x).2 + 1 - (P : Int))) = x := by
  obtain ⟨hq, -, d, hd, hd1, hd2⟩ := sig_spec (P := P) (by omega) hx
  have hpos : (0 : Rat) < ((sig P x).1 : Rat) * 10 ^ ((sig P x).2 + 1 - (P : Int)) := by
    have h1 : 0 < (sig P x).1 := Nat.lt_of_lt_of_le (Nat.pow_pos (by decide)) hq
    exact Rat.mul_pos (by exact_mod_cast h1) (T_pos _)
  rw [hd] at hpos ⊢
  obtain ⟨hr, hn⟩ := round_nearest (p := double) (by decide) hpos
  have hn := hn x hf
  apply Classical.byContradiction
  intro hne
  have hg := gap (p := double) rfl hx hf hr hne
  generalize roundPos double (x + d) = r at *
  -- the last digit is worth less than the gap
  have hu : (10 : Rat) ^ (dexpo x + 1 - (P : Int)) * ((10 ^ 16 : Nat) : Rat) ≤ x := by
    rw [← T_nat, ← T_add]
    have := T_mono (j := dexpo x + 1 - (P : Int) + ((16 : Nat) : Int)) (k := dexpo x) (by omega)
    exact Rat.le_trans this (dexpo_spec hx).1
  have hu0 := T_pos (dexpo x + 1 - (P : Int))
  generalize (10 : Rat) ^ (dexpo x + 1 - (P : Int)) = u at *
  have hc : ((2 ^ 53 + 1 : Nat) : Rat) ≤ ((10 ^ 16 : Nat) : Rat) := by
    exact_mod_cast (show 2 ^ 53 + 1 ≤ 10 ^ 16 by decide)
  have hc0 : (0 : Rat) < ((2 ^ 53 + 1 : Nat) : Rat) := by exact_mod_cast (show 0 < 2 ^ 53 + 1 by decide)
  have h1 := Rat.mul_le_mul_of_nonneg_left hc (Rat.le_of_lt hu0)
  have h2 : u < (x - r).abs := by
    apply (Rat.mul_lt_mul_left hc0).1
    generalize ((10 ^ 16 : Nat) : Rat) = A at *
    generalize ((2 ^ 53 + 1 : Nat) : Rat) = C at *
    grind
  simp only [Rat.abs] at hn h2
  grind

end Verif.Dec
