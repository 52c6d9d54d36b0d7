import Verif.Num.Model
/-!
# Rounding to nearest
-/

namespace Verif.Num
open Verif

/-- Specification: a number of a format, but for its size. -/
def Fits (p : Format) (r : Rat) : Prop := ∃ (m : Int) (j : Int), m.natAbs < 2 ^ p.bits ∧ p.lo ≤ j ∧ r = m * 2 ^ j

/-- Specification: `r` is such a number, and no such number is closer to x. -/
def Nearest (p : Format) (x r : Rat) : Prop := Fits p r ∧ ∀ s, Fits p s → (x - r).abs ≤ (x - s).abs

theorem two_ne : (2 : Rat) ≠ 0 := by decide
theorem two_pos : (0 : Rat) < 2 := by decide
theorem B_pos (k : Int) : (0 : Rat) < 2 ^ k := Rat.zpow_pos two_pos
theorem B_add (j k : Int) : (2 : Rat) ^ (j + k) = 2 ^ j * 2 ^ k := Rat.zpow_add two_ne j k
theorem B_nat (n : Nat) : (2 : Rat) ^ (n : Int) = ((2 ^ n : Nat) : Rat) := by rw [Rat.zpow_natCast, Rat.natCast_pow]; rfl

theorem B_one_le {k : Int} (h : 0 ≤ k) : (1 : Rat) ≤ 2 ^ k := by
  obtain ⟨n, rfl⟩ := Int.eq_ofNat_of_zero_le h
  rw [B_nat]
  exact_mod_cast Nat.one_le_two_pow

theorem B_mono {j k : Int} (h : j ≤ k) : (2 : Rat) ^ j ≤ 2 ^ k := by
  have e : k = j + (k - j) := by omega
  rw [e, B_add]
  have := Rat.mul_le_mul_of_nonneg_left (B_one_le (k := k - j) (by omega)) (Rat.le_of_lt (B_pos j))
  grind

/-- What `expo` finds. -/
theorem expo_spec {x : Rat} (hx : 0 < x) : (2 : Rat) ^ expo x ≤ x ∧ x < 2 ^ (expo x + 1) := by
  have hn : 0 < x.num := by
    have h1 : 0 ≤ x.num := Rat.num_nonneg.2 (Rat.le_of_lt hx)
    have h2 : x.num ≠ 0 := fun h => by rw [Rat.num_eq_zero.1 h] at hx; exact absurd hx (by decide)
    omega
  have hd : 0 < x.den := x.den_pos
  have ha : x.num.natAbs ≠ 0 := by omega
  have e : x * (x.den : Rat) = (x.num.natAbs : Rat) := by
    have h1 : x.num = (x.num.natAbs : Int) := by omega
    have h2 : (x.den : Rat) ≠ 0 := by exact_mod_cast Nat.pos_iff_ne_zero.1 hd
    have h3 : x = (x.num : Rat) / (x.den : Rat) := by
      rw [← Rat.mkRat_eq_div, Rat.mkRat_self]
    have h4 : x * (x.den : Rat) = (x.num : Rat) := by
      have h5 : ∀ d : Nat, (d : Rat) ≠ 0 → x = (x.num : Rat) / (d : Rat) → x * (d : Rat) = (x.num : Rat) := by
        intro d hd e
        generalize x.num = n at e
        rw [e]
        exact Rat.div_mul_cancel hd
      exact h5 _ h2 h3
    rw [h4]
    exact_mod_cast congrArg (Int.cast (R := Rat)) h1
  have hd' : (0 : Rat) < x.den := by exact_mod_cast hd
  -- bounds of numerator and denominator
  have n1 : (2 : Rat) ^ (x.num.natAbs.log2 : Int) ≤ x.num.natAbs := by
    rw [B_nat]; exact_mod_cast Nat.log2_self_le ha
  have n2 : (x.num.natAbs : Rat) < 2 ^ ((x.num.natAbs.log2 : Int) + 1) := by
    rw [show (x.num.natAbs.log2 : Int) + 1 = ((x.num.natAbs.log2 + 1 : Nat) : Int) by omega, B_nat]; exact_mod_cast Nat.lt_log2_self
  have d1 : (2 : Rat) ^ (x.den.log2 : Int) ≤ x.den := by
    rw [B_nat]; exact_mod_cast Nat.log2_self_le (by omega)
  have d2 : (x.den : Rat) < 2 ^ ((x.den.log2 : Int) + 1) := by
    rw [show (x.den.log2 : Int) + 1 = ((x.den.log2 + 1 : Nat) : Int) by omega, B_nat]; exact_mod_cast Nat.lt_log2_self
  -- x < 2^(l+1), 2^(l-1) < x
  have up : x < 2 ^ ((x.num.natAbs.log2 : Int) - (x.den.log2 : Int) + 1) := by
    apply Rat.not_le.1
    intro h
    have h1 := Rat.mul_le_mul_of_nonneg_right h (Rat.le_of_lt hd')
    have h2 := Rat.mul_le_mul_of_nonneg_left d1 (Rat.le_of_lt (B_pos ((x.num.natAbs.log2 : Int) - (x.den.log2 : Int) + 1)))
    rw [← B_add, show (x.num.natAbs.log2 : Int) - (x.den.log2 : Int) + 1 + (x.den.log2 : Int) = (x.num.natAbs.log2 : Int) + 1 by omega] at h2
    rw [e] at h1
    grind
  have lo : (2 : Rat) ^ ((x.num.natAbs.log2 : Int) - (x.den.log2 : Int) - 1) < x := by
    apply Rat.not_le.1
    intro h
    have h1 := Rat.mul_le_mul_of_nonneg_right h (Rat.le_of_lt hd')
    have h2 := (Rat.mul_lt_mul_left (B_pos ((x.num.natAbs.log2 : Int) - (x.den.log2 : Int) - 1))).2 d2
    rw [← B_add, show (x.num.natAbs.log2 : Int) - (x.den.log2 : Int) - 1 + ((x.den.log2 : Int) + 1) = (x.num.natAbs.log2 : Int) by omega] at h2
    rw [e] at h1
    grind
  unfold expo
  dsimp only
  split
  · next h => exact ⟨h, up⟩
  · next h =>
    refine ⟨Rat.le_of_lt lo, ?_⟩
    rw [show (x.num.natAbs.log2 : Int) - (x.den.log2 : Int) - 1 + 1 = (x.num.natAbs.log2 : Int) - (x.den.log2 : Int) by omega]
    exact Rat.not_le.1 h

/-- There is only one. -/
theorem expo_unique {x : Rat} {e : Int} (hx : 0 < x) (h1 : (2 : Rat) ^ e ≤ x) (h2 : x < 2 ^ (e + 1)) : expo x = e := by
  obtain ⟨h3, h4⟩ := expo_spec hx
  rcases Int.lt_trichotomy (expo x) e with h | h | h
  · have := B_mono (j := expo x + 1) (k := e) (by omega); grind
  · exact h
  · have := B_mono (j := e + 1) (k := expo x) (by omega); grind

theorem last_ge (p : Format) (x : Rat) : expo x + 1 - (p.bits : Int) ≤ last p x ∧ p.lo ≤ last p x ∧
    (last p x = expo x + 1 - (p.bits : Int) ∨ last p x = p.lo) := by
  unfold last; omega

/-- A positive number in units of the last place. -/
theorem scaled {p : Format} {x : Rat} (hx : 0 < x) :
    0 < x / ulp p x ∧ x / ulp p x < (((2 ^ p.bits : Nat) : Int) : Rat) ∧ 0 < ulp p x := by
  have hu : 0 < ulp p x := B_pos _
  obtain ⟨h1, h2⟩ := expo_spec hx
  have e2 : (2 : Rat) ^ (expo x + 1) ≤ (((2 ^ p.bits : Nat) : Int) : Rat) * ulp p x := by
    rw [show (((2 ^ p.bits : Nat) : Int) : Rat) = ((2 ^ p.bits : Nat) : Rat) from by simp, ← B_nat, ulp, ← B_add]
    have := last_ge p x
    exact B_mono (by omega)
  refine ⟨?_, ?_, hu⟩
  · rw [Rat.div_def]; exact Rat.mul_pos hx (Rat.inv_pos.2 hu)
  · rw [Rat.div_lt_iff hu]; grind

/-- A number with all its bits. -/
theorem scaled_normal {p : Format} {x : Rat} (hx : 0 < x) (hp : 0 < p.bits) (h : last p x = expo x + 1 - (p.bits : Int)) :
    (((2 ^ (p.bits - 1) : Nat) : Int) : Rat) ≤ x / ulp p x := by
  have hu : 0 < ulp p x := B_pos _
  obtain ⟨h1, h2⟩ := expo_spec hx
  have e1 : (2 : Rat) ^ expo x = (((2 ^ (p.bits - 1) : Nat) : Int) : Rat) * ulp p x := by
    rw [show (((2 ^ (p.bits - 1) : Nat) : Int) : Rat) = ((2 ^ (p.bits - 1) : Nat) : Rat) from by simp, ← B_nat, ulp, ← B_add, h]
    congr 1; omega
  exact Rat.not_lt.1 fun h => by rw [Rat.div_lt_iff hu, ← e1] at h; grind

/-- The integer a number is rounded to. -/
def nearInt (y : Rat) : Int := if 1 / 2 < y - y.floor ∨ (y - y.floor = 1 / 2 ∧ y.floor % 2 = 1) then y.floor + 1 else y.floor

theorem nearInt_half (y : Rat) : -(1 / 2) ≤ y - nearInt y ∧ y - nearInt y ≤ 1 / 2 := by
  have h1 := Rat.floor_le y
  have h2 := Rat.lt_floor_add_one y
  have e : ((y.floor + 1 : Int) : Rat) = (y.floor : Rat) + 1 := by simp
  rw [e] at h2
  have hc : (1 : Rat) / 2 + 1 / 2 = 1 := by decide +kernel
  unfold nearInt
  split
  · next h =>
    rw [e]
    have h3 : 1 / 2 ≤ y - y.floor := by
      rcases h with h | ⟨h, _⟩
      · exact Rat.le_of_lt h
      · rw [h]; exact Rat.le_refl
    clear h e
    generalize (y.floor : Rat) = q at *
    generalize (1 : Rat) / 2 = c at *
    constructor <;> grind
  · next h =>
    have h3 : ¬ 1 / 2 < y - y.floor := fun h' => h (.inl h')
    clear h e
    generalize (y.floor : Rat) = q at *
    generalize (1 : Rat) / 2 = c at *
    constructor <;> grind

/-- No integer is closer. -/
theorem nearInt_near (y : Rat) (n : Int) : (y - nearInt y).abs ≤ (y - n).abs := by
  obtain ⟨h1, h2⟩ := nearInt_half y
  rcases Int.lt_trichotomy n (nearInt y) with h | h | h
  · have h3 : (n : Rat) + 1 ≤ nearInt y := by exact_mod_cast (show n + 1 ≤ nearInt y from h)
    simp only [Rat.abs]; grind
  · rw [h]; grind
  · have h3 : (nearInt y : Rat) + 1 ≤ n := by exact_mod_cast (show nearInt y + 1 ≤ n from h)
    simp only [Rat.abs]; grind

theorem roundPos_eq (p : Format) (x : Rat) : roundPos p x = (nearInt (x / ulp p x) : Rat) * ulp p x := by
  unfold roundPos nearInt
  dsimp only
  split
  · rfl
  · rfl

theorem nearInt_between {y : Rat} {a b : Int} (h1 : (a : Rat) ≤ y) (h2 : y < b) : a ≤ nearInt y ∧ nearInt y ≤ b := by
  have h3 : a ≤ y.floor := by
    have := Rat.floor_monotone h1
    rwa [Rat.floor_intCast] at this
  have h4 : y.floor < b := Rat.floor_lt_iff.2 h2
  unfold nearInt
  split <;> omega

theorem cast_div {x u : Rat} (hu : 0 < u) : x = x / u * u := (Rat.div_mul_cancel (by grind)).symm

theorem abs_mul_pos {a u : Rat} (hu : 0 < u) : (a * u).abs = a.abs * u := by
  simp only [Rat.abs]
  by_cases h : 0 ≤ a
  · rw [if_pos h, if_pos (Rat.mul_nonneg h (Rat.le_of_lt hu))]
  · have := Rat.mul_pos (a := -a) (b := u) (by grind) hu
    rw [if_neg h, if_neg (by grind)]
    grind

/-- Numbers of the format in units of the last place of x: whole, or below all numbers with its exponent. -/
theorem units {p : Format} {x : Rat} (hp : 0 < p.bits) (hx : 0 < x) (m j : Int) (hm : m.natAbs < 2 ^ p.bits) (hj : p.lo ≤ j) :
    (∃ n : Int, (m : Rat) * 2 ^ j = n * ulp p x) ∨
    (∃ w : Rat, (m : Rat) * 2 ^ j = w * ulp p x ∧ w < (((2 ^ (p.bits - 1) : Nat) : Int) : Rat) ∧
      (((2 ^ (p.bits - 1) : Nat) : Int) : Rat) ≤ x / ulp p x) := by
  have es : (2 : Rat) ^ j = 2 ^ (j - last p x) * ulp p x := by
    rw [ulp, ← B_add]; congr 1; omega
  have hl := last_ge p x
  have hpp : 2 ^ p.bits = 2 ^ (p.bits - 1) * 2 := by rw [← Nat.pow_succ]; congr 1; omega
  have hp1 : 0 < 2 ^ (p.bits - 1) := Nat.two_pow_pos _
  rw [es, ← Rat.mul_assoc]
  generalize hk : j - last p x = k
  by_cases h : 0 ≤ k
  · obtain ⟨n, rfl⟩ := Int.eq_ofNat_of_zero_le h
    have : (m : Rat) * 2 ^ (n : Int) = ((m * (2 ^ n : Nat) : Int) : Rat) := by rw [B_nat]; simp
    exact .inl ⟨_, by rw [this]⟩
  · refine .inr ⟨_, rfl, ?_, scaled_normal hx hp (by omega)⟩
    have hk1 : (2 : Rat) ^ k * 2 ≤ 1 := by
      have := B_mono (j := k + 1) (k := 0) (by omega)
      rw [B_add] at this
      simpa using this
    have hk0 := B_pos k
    have hm1 : (m : Rat) < 2 * (((2 ^ (p.bits - 1) : Nat) : Int) : Rat) := by
      have : m < 2 * ((2 ^ (p.bits - 1) : Nat) : Int) := by omega
      exact_mod_cast this
    have hP : (0 : Rat) < (((2 ^ (p.bits - 1) : Nat) : Int) : Rat) := by exact_mod_cast hp1
    generalize (((2 ^ (p.bits - 1) : Nat) : Int) : Rat) = P at *
    have a1 := (Rat.mul_lt_mul_right hk0).2 hm1
    have a2 := Rat.mul_le_mul_of_nonneg_left hk1 (Rat.le_of_lt hP)
    grind

/-- Rounding a positive number gives the nearest number. -/
theorem round_nearest {p : Format} {x : Rat} (hp : 0 < p.bits) (hx : 0 < x) : Nearest p x (roundPos p x) := by
  obtain ⟨h1, h2, hu⟩ := scaled (p := p) hx
  rw [roundPos_eq]
  have hb := nearInt_between (a := 0) (by simpa using Rat.le_of_lt h1) h2
  have hl := last_ge p x
  have hpp : 2 ^ p.bits = 2 ^ (p.bits - 1) * 2 := by rw [← Nat.pow_succ]; congr 1; omega
  have hp1 : 0 < 2 ^ (p.bits - 1) := Nat.two_pow_pos _
  refine ⟨?_, ?_⟩
  · by_cases hq : nearInt (x / ulp p x) = ((2 ^ p.bits : Nat) : Int)
    · refine ⟨1, (p.bits : Int) + last p x, ?_, by omega, ?_⟩
      · show 1 < 2 ^ p.bits
        omega
      · rw [hq, B_add, B_nat]
        show _ * ulp p x = 1 * (_ * ulp p x)
        rw [Rat.one_mul]
        simp
    · exact ⟨nearInt (x / ulp p x), last p x, by omega, hl.2.1, rfl⟩
  · rintro s ⟨m, j, hm, hj, rfl⟩
    have hun := units hp hx m j hm hj
    generalize hy : x / ulp p x = y at *
    have hxy : x = y * ulp p x := by rw [← hy]; exact cast_div hu
    have key : ∀ z : Rat, (y - nearInt y).abs ≤ (y - z).abs → (x - nearInt y * ulp p x).abs ≤ (x - z * ulp p x).abs := by
      intro z hz
      have e1 : x - nearInt y * ulp p x = (y - nearInt y) * ulp p x := by grind
      have e2 : x - z * ulp p x = (y - z) * ulp p x := by grind
      rw [e1, e2, abs_mul_pos hu, abs_mul_pos hu]
      exact Rat.mul_le_mul_of_nonneg_right hz (Rat.le_of_lt hu)
    rcases hun with ⟨n, e⟩ | ⟨w, e, hw, hP⟩
    · rw [e]; exact key _ (nearInt_near _ _)
    · rw [e]
      apply key
      have := nearInt_near y ((2 ^ (p.bits - 1) : Nat) : Int)
      generalize (((2 ^ (p.bits - 1) : Nat) : Int) : Rat) = P at *
      generalize (y - nearInt y).abs = d at *
      have e1 : (y - P).abs = y - P := Rat.abs_of_nonneg (by grind)
      rw [Rat.abs_of_nonneg (show 0 ≤ y - w by grind)]
      grind

theorem roundPos_nonneg {p : Format} {x : Rat} (hx : 0 < x) : 0 ≤ roundPos p x := by
  obtain ⟨h1, h2, hu⟩ := scaled (p := p) hx
  rw [roundPos_eq]
  have hb := (nearInt_between (a := 0) (by simpa using Rat.le_of_lt h1) h2).1
  exact Rat.mul_nonneg (by exact_mod_cast hb) (Rat.le_of_lt hu)

/-- Numbers of the format stay as they are. -/
theorem round_exact {p : Format} {x : Rat} (hp : 0 < p.bits) (hx : 0 < x) (h : Fits p x) : roundPos p x = x := by
  have := (round_nearest hp hx).2 x h
  rw [show x - x = 0 by grind, Rat.abs_zero] at this
  simp only [Rat.abs] at this
  grind

theorem nearInt_mono {y z : Rat} (h : y ≤ z) : nearInt y ≤ nearInt z := by
  have hf := Rat.floor_monotone h
  rcases Int.lt_or_eq_of_le hf with hl | he
  · unfold nearInt; split <;> split <;> omega
  · unfold nearInt
    rw [← he]
    split
    · next h1 =>
      rw [if_pos]
      · exact Int.le_refl _
      · rcases h1 with h1 | ⟨h1, h2⟩
        · exact .inl (by grind)
        · by_cases hz : z - y.floor = 1 / 2
          · exact .inr ⟨hz, h2⟩
          · left
            have h3 : 1 / 2 ≤ z - y.floor := by rw [← h1]; grind
            exact Rat.lt_of_le_of_ne h3 (Ne.symm hz)
    · split <;> omega

theorem nearInt_tie {y w : Rat} {n : Int} (hw : w = n) (hne : n ≠ nearInt y) (hd : (y - w).abs = (y - nearInt y).abs) :
    nearInt y % 2 = 0 := by
  subst hw
  obtain ⟨h1, h2⟩ := nearInt_half y
  have hc : (1 : Rat) / 2 + 1 / 2 = 1 := by decide +kernel
  have hy1 := Rat.floor_le y
  have hy2 := Rat.lt_floor_add_one y
  have e : ((y.floor + 1 : Int) : Rat) = (y.floor : Rat) + 1 := by simp
  rw [e] at hy2
  have hh : y - nearInt y = 1 / 2 ∨ y - nearInt y = -(1 / 2) := by
    generalize (1 : Rat) / 2 = c at *
    rcases Int.lt_trichotomy n (nearInt y) with h | h | h
    · have h3 : (n : Rat) + 1 ≤ nearInt y := by exact_mod_cast (show n + 1 ≤ nearInt y from h)
      simp only [Rat.abs] at hd
      right; grind
    · exact absurd h hne
    · have h3 : (nearInt y : Rat) + 1 ≤ n := by exact_mod_cast (show nearInt y + 1 ≤ n from h)
      simp only [Rat.abs] at hd
      left; grind
  have hfl : y - y.floor = 1 / 2 := by
    unfold nearInt at hh
    generalize (1 : Rat) / 2 = c at *
    split at hh
    · rw [e] at hh; generalize (y.floor : Rat) = q at *; grind
    · generalize (y.floor : Rat) = q at *; grind
  have hlt : ¬ (1 : Rat) / 2 < 1 / 2 := Rat.lt_irrefl
  unfold nearInt
  rw [hfl]
  split
  · next h => rcases h with h | ⟨_, h⟩
              · exact absurd h hlt
              · omega
  · next h =>
    have : ¬ y.floor % 2 = 1 := fun h' => h (.inr ⟨rfl, h'⟩)
    omega

/-- Of two nearest numbers the one with an even last bit is taken. -/
theorem round_tie {p : Format} {x s : Rat} (hp : 0 < p.bits) (hx : 0 < x) (hs : Nearest p x s) (hne : s ≠ roundPos p x) (e : Int)
    (h1 : (2 : Rat) ^ e ≤ x) (h2 : x < 2 ^ (e + 1)) :
    ∃ m : Int, roundPos p x = ((2 * m : Int) : Rat) * 2 ^ (max (e + 1 - (p.bits : Int)) p.lo) := by
  have he := expo_unique hx h1 h2
  have hr := round_nearest hp hx
  have hd : (x - s).abs = (x - roundPos p x).abs := Rat.le_antisymm (hs.2 _ hr.1) (hr.2 _ hs.1)
  obtain ⟨b1, b2, hu⟩ := scaled (p := p) hx
  have hue : ulp p x = 2 ^ (max (e + 1 - (p.bits : Int)) p.lo) := by simp [ulp, last, he]
  rw [← hue]
  rw [roundPos_eq] at hd hne ⊢
  obtain ⟨⟨m, j, hm, hj, rfl⟩, -⟩ := hs
  have hun := units hp hx m j hm hj
  generalize hy : x / ulp p x = y at *
  have hxy : x = y * ulp p x := by rw [← hy]; exact cast_div hu
  have hd2 : ∀ w : Rat, (m : Rat) * 2 ^ j = w * ulp p x → (y - w).abs = (y - nearInt y).abs := by
    intro w hw
    rw [hw] at hd
    have e1 : x - nearInt y * ulp p x = (y - nearInt y) * ulp p x := by grind
    have e2 : x - w * ulp p x = (y - w) * ulp p x := by grind
    rw [e1, e2, abs_mul_pos hu, abs_mul_pos hu] at hd
    apply Rat.le_antisymm
    · exact Rat.not_lt.1 fun h => by have := (Rat.mul_lt_mul_right hu).2 h; grind
    · exact Rat.not_lt.1 fun h => by have := (Rat.mul_lt_mul_right hu).2 h; grind
  rcases hun with ⟨n, en⟩ | ⟨w, en, hw, hP⟩
  · have h0 := nearInt_tie (y := y) rfl (fun hc => hne (by rw [en, hc])) (hd2 _ en)
    exact ⟨nearInt y / 2, by congr 2; omega⟩
  · exfalso
    have hd2 := hd2 _ en
    have hn := nearInt_near y ((2 ^ (p.bits - 1) : Nat) : Int)
    generalize (((2 ^ (p.bits - 1) : Nat) : Int) : Rat) = P at *
    rw [← hd2, Rat.abs_of_nonneg (show 0 ≤ y - P by grind), Rat.abs_of_nonneg (show 0 ≤ y - w by grind)] at hn
    grind

/-- Rounding keeps the order. -/
theorem round_mono {p : Format} {x y : Rat} (hp : 0 < p.bits) (hx : 0 < x) (h : x ≤ y) : roundPos p x ≤ roundPos p y := by
  have hy : 0 < y := by grind
  by_cases he : last p x = last p y
  · have hu : ulp p x = ulp p y := by simp [ulp, he]
    rw [roundPos_eq, roundPos_eq, hu]
    have hu0 : 0 < ulp p y := B_pos _
    apply Rat.mul_le_mul_of_nonneg_right _ (Rat.le_of_lt hu0)
    have : nearInt (x / ulp p y) ≤ nearInt (y / ulp p y) := nearInt_mono (Rat.not_lt.1 fun hl => by
      rw [Rat.div_lt_iff hu0, ← cast_div hu0] at hl; grind)
    exact_mod_cast this
  · -- a power of two lies between them
    obtain ⟨x1, x2⟩ := expo_spec hx
    obtain ⟨y1, y2⟩ := expo_spec hy
    have hle : expo x ≤ expo y := by
      rcases Int.lt_or_le (expo y) (expo x) with h1 | h1
      · have := B_mono (j := expo y + 1) (k := expo x) (by omega); grind
      · exact h1
    have lx := last_ge p x
    have ly := last_ge p y
    have hlt : last p x < last p y ∧ last p y = expo y + 1 - (p.bits : Int) := by
      unfold last at he ⊢; omega
    obtain ⟨a1, a2, au⟩ := scaled (p := p) hx
    obtain ⟨b1, b2, bu⟩ := scaled (p := p) hy
    have b1 := scaled_normal hy hp hlt.2
    have ha := (nearInt_between (a := 0) (by simpa using Rat.le_of_lt a1) a2).2
    have hb := (nearInt_between b1 b2).1
    have e1 : (((2 ^ p.bits : Nat) : Int) : Rat) * ulp p x = 2 ^ ((p.bits : Int) + last p x) := by
      rw [show (((2 ^ p.bits : Nat) : Int) : Rat) = ((2 ^ p.bits : Nat) : Rat) from by simp, ← B_nat, ulp, ← B_add]
    have e2 : (((2 ^ (p.bits - 1) : Nat) : Int) : Rat) * ulp p y = 2 ^ expo y := by
      rw [show (((2 ^ (p.bits - 1) : Nat) : Int) : Rat) = ((2 ^ (p.bits - 1) : Nat) : Rat) from by simp, ← B_nat, ulp, ← B_add, hlt.2]
      congr 1; omega
    rw [roundPos_eq, roundPos_eq]
    have c1 : (nearInt (x / ulp p x) : Rat) * ulp p x ≤ 2 ^ ((p.bits : Int) + last p x) := by
      rw [← e1]; exact Rat.mul_le_mul_of_nonneg_right (by exact_mod_cast ha) (Rat.le_of_lt au)
    have c2 : (2 : Rat) ^ expo y ≤ (nearInt (y / ulp p y) : Rat) * ulp p y := by
      rw [← e2]; exact Rat.mul_le_mul_of_nonneg_right (by exact_mod_cast hb) (Rat.le_of_lt bu)
    have c3 : (2 : Rat) ^ ((p.bits : Int) + last p x) ≤ 2 ^ expo y := B_mono (by omega)
    grind

end Verif.Num
