import Verif.Num.Round
/-!
# C117: arithmetic with floats
-/

namespace Verif.Num
open Verif

/-! ## Specification -/

/-- A float that is the number x. -/
def Is (f : F) (x : Rat) : Prop := ∃ neg mag, f = .fin neg mag ∧ x = if neg then -mag else mag

/-- What a number of a format can hold. -/
def Held (p : Format) : F → Prop
  | .fin _ m => 0 ≤ m ∧ Fits p m ∧ m < 2 ^ p.hi
  | _ => True

/-- x as a float: the nearest number, or infinite with its sign if that is too large. -/
def Rounded (p : Format) (x : Rat) (f : F) : Prop :=
  ∃ z, Nearest p x z ∧ ((z.abs < 2 ^ p.hi ∧ Is f z) ∨ (2 ^ p.hi ≤ z.abs ∧ f = .inf (decide (z < 0))))

/-- The order of floats; NaN is not ordered. -/
def Le : F → F → Prop
  | .nan, _ => False
  | _, .nan => False
  | .inf true, _ => True
  | _, .inf false => True
  | .fin a x, .fin b y => (if a then -x else x) ≤ (if b then -y else y)
  | _, _ => False

/-- A format that holds all integers of 64 bits and all doubles. -/
def Wide (p : Format) : Prop := 64 ≤ p.bits ∧ p.lo ≤ -1074 ∧ 1024 ≤ p.hi

example : Wide extended := ⟨by decide, by decide, by decide⟩

/-- The operation on numbers. -/
def exactOp : Op → Rat → Rat → Rat
  | .add, x, y => x + y
  | .sub, x, y => x - y
  | .mul, x, y => x * y
  | .div, x, y => x / y
  | .rem, x, _ => x

/-! ## Rounding numbers of any sign -/

theorem val_neg (a : Bool) (x : Rat) : val (!a) x = -val a x := by cases a <;> simp [val]

theorem fits_neg {p : Format} {x : Rat} (h : Fits p x) : Fits p (-x) := by
  obtain ⟨m, j, hm, hj, rfl⟩ := h
  exact ⟨-m, j, by simpa using hm, hj, by rw [Rat.intCast_neg]; grind⟩

theorem fits_zero (p : Format) : Fits p 0 := ⟨0, p.lo, Nat.two_pow_pos _, Int.le_refl _, by simp⟩

theorem nearest_neg {p : Format} {x r : Rat} (h : Nearest p x r) : Nearest p (-x) (-r) := by
  refine ⟨fits_neg h.1, fun s hs => ?_⟩
  have := h.2 _ (fits_neg hs)
  rw [← Rat.abs_neg (x := x - r), ← Rat.abs_neg (x := x - -s)] at this
  rw [show -x - -r = -(x - r) by grind, show -x - s = -(x - -s) by grind]
  exact this

theorem nearest_zero (p : Format) : Nearest p 0 0 :=
  ⟨fits_zero p, fun s _ => by rw [show (0 : Rat) - 0 = 0 by grind, Rat.abs_zero]; exact Rat.abs_nonneg⟩

theorem roundMag_spec {p : Format} {x : Rat} (hp : 0 < p.bits) (hx : 0 ≤ x) :
    Nearest p x (roundMag p x) ∧ 0 ≤ roundMag p x := by
  unfold roundMag
  by_cases h : x = 0
  · rw [if_pos h, h]; exact ⟨nearest_zero p, by grind⟩
  · rw [if_neg h]
    have hx' : 0 < x := by grind
    exact ⟨round_nearest hp hx', roundPos_nonneg hx'⟩

theorem cast_nat (n : Nat) : ((n : Int) : Rat) = (n : Rat) := by exact_mod_cast rfl

theorem val_abs (a : Bool) {m : Rat} (hm : 0 ≤ m) : (val a m).abs = m := by
  cases a
  · exact Rat.abs_of_nonneg hm
  · show (-m).abs = m
    rw [Rat.abs_neg]; exact Rat.abs_of_nonneg hm

theorem fit_spec {p : Format} {x : Rat} (a : Bool) {m : Rat} (hm : 0 ≤ m) (h : Nearest p x (val a m)) : Rounded p x (fit p a m) := by
  refine ⟨_, h, ?_⟩
  rw [val_abs a hm]
  unfold fit
  by_cases hb : m < 2 ^ p.hi
  · rw [if_pos hb]; exact .inl ⟨hb, a, m, rfl, rfl⟩
  · rw [if_neg hb]
    refine .inr ⟨Rat.not_lt.1 hb, ?_⟩
    have h0 := B_pos p.hi
    congr 1
    cases a
    · symm; apply decide_eq_false; show ¬ m < 0; grind
    · symm; apply decide_eq_true; show -m < 0; grind

theorem fit_held {p : Format} (a : Bool) {m : Rat} (hm : 0 ≤ m) (h : Fits p m) : Held p (fit p a m) := by
  unfold fit
  by_cases hb : m < 2 ^ p.hi
  · rw [if_pos hb]; exact ⟨hm, h, hb⟩
  · rw [if_neg hb]; trivial

theorem fit_nan (p : Format) (a : Bool) (m : Rat) : fit p a m ≠ .nan := by
  unfold fit; split <;> simp

/-- Rounding of any number. -/
def roundAny (p : Format) (x : Rat) : Rat := if x < 0 then -roundPos p (-x) else roundMag p x

theorem ofRat_spec {p : Format} (hp : 0 < p.bits) (x : Rat) :
    ∃ a m, ofRat p x = fit p a m ∧ 0 ≤ m ∧ Fits p m ∧ Nearest p x (val a m) ∧ val a m = roundAny p x := by
  unfold ofRat roundAny
  split
  · next h =>
    have h' : 0 < -x := by grind
    have hn := round_nearest hp h'
    have := nearest_neg hn
    rw [show - -x = x by grind] at this
    exact ⟨_, _, rfl, roundPos_nonneg h', hn.1, this, rfl⟩
  · next h =>
    obtain ⟨h1, h2⟩ := roundMag_spec (p := p) (x := x) hp (by grind)
    exact ⟨_, _, rfl, h2, h1.1, h1, rfl⟩

theorem nearest_signed {p : Format} {x r : Rat} (a : Bool) (h : Nearest p x r) : Nearest p (val a x) (val a r) := by
  cases a
  · exact h
  · exact nearest_neg h

theorem val_mul (a b : Bool) (x y : Rat) : val (a != b) (x * y) = val a x * val b y := by
  cases a <;> cases b <;> simp [val] <;> grind

theorem val_div (a b : Bool) (x y : Rat) : val (a != b) (x / y) = val a x / val b y := by
  have hi : x / -y = -(x / y) := by
    by_cases hy : y = 0
    · subst hy; simp [Rat.div_def]
    · have hy' : -y ≠ 0 := by grind
      have h1 : x / y * y = x := Rat.div_mul_cancel hy
      have h2 : x / -y * -y = x := Rat.div_mul_cancel hy'
      have h3 : (x / -y + x / y) * y = 0 := by grind
      rcases Rat.mul_eq_zero.1 h3 with h | h
      · grind
      · exact absurd h hy
  have hj : ∀ z : Rat, -x / z = -(x / z) := by intro z; rw [Rat.div_def, Rat.div_def]; grind
  cases a <;> cases b <;> simp only [val, Bool.bne_false, Bool.bne_true, Bool.not_true, Bool.not_false, if_true, Bool.false_eq_true, if_false]
  · exact hi.symm
  · exact (hj y).symm
  · rw [hj, hi]; grind

theorem val_zero_iff (a : Bool) (x : Rat) : val a x = 0 ↔ x = 0 := by cases a <;> simp [val] <;> grind

/-! ## The theorems -/

/-- C117.  With an operand that is a Float the result is a Float: nothing throws and nothing is undefined, not even division by zero. -/
theorem float_result (p : Format) (op : Op) (a b : Num) (h : (∃ f, a = .flt f) ∨ ∃ f, b = .flt f) :
    numOp p op a b = .ok (.flt (fop p op (a.f p) (b.f p))) := by
  rcases h with ⟨f, rfl⟩ | ⟨f, rfl⟩
  · cases b <;> rfl
  · cases a <;> rfl

/-- C117.  The sum, difference, product and quotient of two numbers is the number nearest to the exact one that a `long double` can hold,
or infinite if that is too large. -/
theorem float_nearest {p : Format} (hp : 0 < p.bits) (op : Op) (ho : op ≠ .rem) {a b : F} (ha : Held p a) (hb : Held p b) {x y : Rat} (hx : Is a x)
    (hy : Is b y) (hd : op = .div → y ≠ 0) : Rounded p (exactOp op x y) (fop p op a b) := by
  obtain ⟨na, ma, rfl, rfl⟩ := hx
  obtain ⟨nb, mb, rfl, rfl⟩ := hy
  change Rounded p (exactOp op (val na ma) (val nb mb)) _
  have add : ∀ (a b : Bool) (x y : Rat), Rounded p (val a x + val b y) (fadd p (.fin a x) (.fin b y)) := by
    intro a b x y
    simp only [fadd]
    split
    · next h =>
      rw [h]
      refine ⟨0, nearest_zero p, .inl ⟨by rw [Rat.abs_zero]; exact B_pos _, _, _, rfl, by split <;> grind⟩⟩
    · obtain ⟨c, m, e, h0, -, hn, -⟩ := ofRat_spec hp (val a x + val b y)
      rw [e]; exact fit_spec c h0 hn
  cases op with
  | add => exact add _ _ _ _
  | sub =>
    have h1 := add na (!nb) ma mb
    rw [val_neg] at h1
    rw [exactOp, Rat.sub_eq_add_neg]
    exact h1
  | mul =>
    have hm := Rat.mul_nonneg ha.1 hb.1
    obtain ⟨h1, h0⟩ := roundMag_spec (p := p) hp hm
    rw [exactOp, ← val_mul]
    exact fit_spec _ h0 (nearest_signed _ h1)
  | div =>
    have hne : mb ≠ 0 := fun h => hd rfl ((val_zero_iff nb mb).2 h)
    have hb0 : 0 < mb := by have := hb.1; grind
    have hm : 0 ≤ ma / mb := by
      rw [Rat.div_def]; exact Rat.mul_nonneg ha.1 (Rat.le_of_lt (Rat.inv_pos.2 hb0))
    obtain ⟨h1, h0⟩ := roundMag_spec (p := p) hp hm
    rw [exactOp, ← val_div]
    simp only [fop, fdiv]
    rw [if_neg hne]
    exact fit_spec _ h0 (nearest_signed _ h1)
  | rem => exact absurd rfl ho

/-- C117.  A result a `long double` can hold is exact. -/
theorem float_exact {p : Format} (hp : 0 < p.bits) (op : Op) (ho : op ≠ .rem) {a b : F} (ha : Held p a) (hb : Held p b) {x y : Rat} (hx : Is a x)
    (hy : Is b y) (hd : op = .div → y ≠ 0) (hf : Fits p (exactOp op x y)) (hl : (exactOp op x y).abs < 2 ^ p.hi) :
    Is (fop p op a b) (exactOp op x y) := by
  obtain ⟨z, h2, h1⟩ := float_nearest hp op ho ha hb hx hy hd
  have := h2.2 _ hf
  rw [show exactOp op x y - exactOp op x y = 0 by grind, Rat.abs_zero] at this
  have e : exactOp op x y = z := by simp only [Rat.abs] at this; grind
  rw [e] at hl ⊢
  rcases h1 with h1 | h1
  · exact h1.2
  · exact absurd h1.1 (Rat.not_le.2 hl)

/-- What is rounded is infinite only if it is larger than all numbers of the format, and it is infinite if it is 2^hi or more. -/
theorem rounded_size {p : Format} (hp : 0 < p.bits) (hw : p.lo ≤ p.hi - p.bits) {x : Rat} {f : F} (h : Rounded p x f) :
    (x.abs ≤ (2 ^ p.bits - 1 : Int) * 2 ^ (p.hi - (p.bits : Int)) → ∃ z, Is f z ∧ Nearest p x z) ∧
    (2 ^ p.hi ≤ x.abs → f = .inf (decide (x < 0))) := by
  obtain ⟨z, ⟨hz, hn⟩, h⟩ := h
  have hb : 1 < 2 ^ p.bits := Nat.one_lt_two_pow (by omega)
  have ftop : Fits p (2 ^ p.hi) := ⟨1, p.hi, hb, by omega, by simp⟩
  have htop := B_pos p.hi
  have fmax : Fits p ((2 ^ p.bits - 1 : Int) * 2 ^ (p.hi - (p.bits : Int))) := ⟨2 ^ p.bits - 1, _, by
    have : ((2 ^ p.bits : Nat) : Int) = 2 ^ p.bits := by simp
    omega, hw, by simp⟩
  have lmax : (((2 ^ p.bits - 1 : Int) : Int) : Rat) * 2 ^ (p.hi - (p.bits : Int)) < 2 ^ p.hi := by
    have e : (2 : Rat) ^ p.hi = (((2 ^ p.bits : Nat) : Int) : Rat) * 2 ^ (p.hi - (p.bits : Int)) := by
      rw [show (((2 ^ p.bits : Nat) : Int) : Rat) = ((2 ^ p.bits : Nat) : Rat) from by simp, ← B_nat, ← B_add]; congr 1; omega
    rw [e]
    apply (Rat.mul_lt_mul_right (B_pos _)).2
    have : (2 ^ p.bits - 1 : Int) < ((2 ^ p.bits : Nat) : Int) := by
      have : ((2 ^ p.bits : Nat) : Int) = 2 ^ p.bits := by simp
      omega
    exact_mod_cast this
  have nmax := hn _ fmax
  have nmax' := hn _ (fits_neg fmax)
  have ntop := hn _ ftop
  have ntop' := hn _ (fits_neg ftop)
  have n0 := hn _ (fits_zero p)
  push_cast at *
  generalize ((2 : Rat) ^ p.bits - 1) * 2 ^ (p.hi - (p.bits : Int)) = M at *
  generalize (2 : Rat) ^ p.hi = T at *
  constructor
  · intro hx
    rcases h with ⟨-, h⟩ | ⟨h, -⟩
    · exact ⟨z, h, hz, hn⟩
    · exfalso
      simp only [Rat.abs] at *
      grind
  · intro hx
    rcases h with ⟨h, -⟩ | ⟨h, rfl⟩
    · exfalso
      simp only [Rat.abs] at *
      grind
    · congr 1
      apply decide_eq_decide.2
      simp only [Rat.abs] at *
      grind

/-- C117.  A result is infinite, with its sign, if it is 2^hi or more, and a number if it is at most the largest number. -/
theorem float_overflow {p : Format} (hp : 0 < p.bits) (hw : p.lo ≤ p.hi - p.bits) (op : Op) (ho : op ≠ .rem) {a b : F} (ha : Held p a)
    (hb : Held p b) {x y : Rat} (hx : Is a x) (hy : Is b y) (hd : op = .div → y ≠ 0) :
    ((exactOp op x y).abs ≤ (2 ^ p.bits - 1 : Int) * 2 ^ (p.hi - (p.bits : Int)) →
      ∃ z, Is (fop p op a b) z ∧ Nearest p (exactOp op x y) z) ∧
    (2 ^ p.hi ≤ (exactOp op x y).abs → fop p op a b = .inf (decide (exactOp op x y < 0))) :=
  rounded_size hp hw (float_nearest hp op ho ha hb hx hy hd)

/-- C117.  An Integer or Unsigned becomes exactly the Float of the same value, where those of 64 bits can be held. -/
theorem int_exact {p : Format} (hp : Wide p) (i : Int64) (u : UInt64) :
    Is ((Num.int i).f p) i.toInt ∧ Is ((Num.uint u).f p) (u.toNat : Int) := by
  have key : ∀ i : Int, i.natAbs < 2 ^ 64 → Is (ofInt p i) i := by
    intro i hi
    have hf : Fits p ((i.natAbs : Int) : Rat) := ⟨i.natAbs, 0, by
      have := Nat.pow_le_pow_right (n := 2) (by decide) hp.1
      simp only [Int.natAbs_natCast]; omega, by have := hp.2.1; omega, by simp⟩
    have hl : ((i.natAbs : Int) : Rat) < 2 ^ p.hi := by
      have h1 : ((i.natAbs : Int) : Rat) < (2 : Rat) ^ ((64 : Nat) : Int) := by
        rw [B_nat, cast_nat]; exact Rat.natCast_lt_natCast.2 hi
      have h2 := B_mono (j := ((64 : Nat) : Int)) (k := p.hi) (by have := hp.2.2; omega)
      grind
    have hr : roundMag p ((i.natAbs : Int) : Rat) = ((i.natAbs : Int) : Rat) := by
      unfold roundMag
      split
      · next h => rw [h]
      · next h =>
        have : (0 : Rat) ≤ ((i.natAbs : Int) : Rat) := by exact_mod_cast Int.natCast_nonneg i.natAbs
        exact round_exact (by have := hp.1; omega) (by grind) hf
    refine ⟨_, _, by rw [ofInt, hr, fit, if_pos hl], ?_⟩
    by_cases h : i < 0
    · simp only [h, decide_true, if_true]
      rw [← Rat.intCast_neg]
      congr 1; omega
    · simp only [h, decide_false, Bool.false_eq_true, if_false]
      congr 1; omega
  have h1 := Int64.toInt_lt i
  have h2 := Int64.le_toInt i
  have h3 := u.toNat_lt
  exact ⟨key _ (by omega), key _ (by omega)⟩

/-- C117.  `Rem` is exact: the rest of a division towards zero, smaller than the divisor, with the sign of the dividend. -/
theorem float_rem {p : Format} {a b : F} (ha : Held p a) (hb : Held p b) {x y : Rat} (hx : Is a x) (hy : Is b y) (hd : y ≠ 0) :
    ∃ (r : Rat) (t : Int), Is (fop p .rem a b) r ∧ x = y * t + r ∧ r.abs < y.abs ∧ 0 ≤ r * x ∧ (t : Rat).abs ≤ (x / y).abs := by
  obtain ⟨na, ma, rfl, rfl⟩ := hx
  obtain ⟨nb, mb, rfl, rfl⟩ := hy
  change val nb mb ≠ 0 at hd
  have hne : mb ≠ 0 := fun h => hd ((val_zero_iff nb mb).2 h)
  have hb0 : 0 < mb := by have := hb.1; grind
  have ha0 := ha.1
  have f1 := Rat.floor_le (ma / mb)
  have f2 := Rat.lt_floor_add_one (ma / mb)
  have hq0 : 0 ≤ ma / mb := by rw [Rat.div_def]; exact Rat.mul_nonneg ha0 (Rat.le_of_lt (Rat.inv_pos.2 hb0))
  have f0 : (0 : Rat) ≤ ((ma / mb).floor : Rat) := by
    have := Rat.floor_monotone hq0
    have e : (0 : Rat).floor = 0 := by decide +kernel
    rw [e] at this
    exact_mod_cast this
  rw [show (((ma / mb).floor + 1 : Int) : Rat) = ((ma / mb).floor : Rat) + 1 by simp, Rat.div_lt_iff hb0] at f2
  have f1' : ((ma / mb).floor : Rat) * mb ≤ ma := by
    have := Rat.mul_le_mul_of_nonneg_right f1 (Rat.le_of_lt hb0)
    rwa [← cast_div hb0] at this
  have hval : (val na ma / val nb mb).abs = ma / mb := by
    rw [← val_div]
    cases (na != nb)
    · exact Rat.abs_of_nonneg hq0
    · show (-(ma / mb)).abs = _
      rw [Rat.abs_neg]; exact Rat.abs_of_nonneg hq0
  refine ⟨val na (ma - mb * ((ma / mb).floor : Rat)), if na = nb then (ma / mb).floor else -(ma / mb).floor,
    ⟨na, _, by simp only [fop, frem]; rw [if_neg hne], rfl⟩, ?_, ?_, ?_, ?_⟩
  · change val na ma = val nb mb * _ + _
    cases na <;> cases nb <;> simp [val, Rat.intCast_neg] <;> grind
  · have hr0 : 0 ≤ ma - mb * ((ma / mb).floor : Rat) := by grind
    have e1 : (val na (ma - mb * ((ma / mb).floor : Rat))).abs = ma - mb * ((ma / mb).floor : Rat) := by
      cases na
      · exact Rat.abs_of_nonneg hr0
      · show (-(ma - mb * ((ma / mb).floor : Rat))).abs = _
        rw [Rat.abs_neg]; exact Rat.abs_of_nonneg hr0
    have e2 : (val nb mb).abs = mb := by
      cases nb
      · exact Rat.abs_of_nonneg hb.1
      · show (-mb).abs = mb
        rw [Rat.abs_neg]; exact Rat.abs_of_nonneg hb.1
    change (val na _).abs < (val nb mb).abs
    rw [e1, e2]
    grind
  · have hr0 : 0 ≤ ma - mb * ((ma / mb).floor : Rat) := by grind
    have := Rat.mul_nonneg hr0 ha0
    change 0 ≤ val na _ * val na ma
    cases na <;> simp only [val, if_true, Bool.false_eq_true, if_false] <;> grind
  · change _ ≤ (val na ma / val nb mb).abs
    rw [hval]
    split
    · rw [Rat.abs_of_nonneg f0]; exact f1
    · rw [Rat.intCast_neg, Rat.abs_neg, Rat.abs_of_nonneg f0]; exact f1

/-- C117.  When the result is no number: an operand is none, or there is nothing the result could be. -/
theorem float_nan {p : Format} (op : Op) (a b : F) :
    fop p op a b = .nan ↔ a = .nan ∨ b = .nan ∨
      match op with
      | .add => ∃ s, a = .inf s ∧ b = .inf !s
      | .sub => ∃ s, a = .inf s ∧ b = .inf s
      | .mul => ((∃ s, a = .inf s) ∧ Is b 0) ∨ (Is a 0 ∧ ∃ s, b = .inf s)
      | .div => ((∃ s, a = .inf s) ∧ ∃ s, b = .inf s) ∨ (Is a 0 ∧ Is b 0)
      | .rem => (∃ s, a = .inf s) ∨ Is b 0 := by
  have is0 : ∀ (c : Bool) (z : Rat), Is (.fin c z) 0 ↔ z = 0 := by
    intro c z
    constructor
    · rintro ⟨n, m, h1, h2⟩
      cases h1
      exact (val_zero_iff c z).1 h2.symm
    · rintro rfl; exact ⟨c, 0, rfl, by split <;> grind⟩
  have no0 : ∀ f, (∀ c z, f ≠ .fin c z) → ¬ Is f 0 := by
    rintro f h ⟨n, m, rfl, -⟩; exact h n m rfl
  have ni : ∀ s, ¬ Is (.inf s) 0 := fun s => no0 _ (by simp)
  have nn : ¬ Is .nan 0 := no0 _ (by simp)
  have rnan : ∀ x, ofRat p x ≠ .nan := by intro x; unfold ofRat; split <;> exact fit_nan _ _ _
  have fnan := fit_nan p
  cases op <;> cases a <;> cases b <;>
    simp only [fop, fadd, fneg, fmul, fdiv, frem, is0, ni, nn, reduceCtorEq, F.inf.injEq, F.fin.injEq, false_and, and_false, or_false, false_or,
      true_or, or_true, exists_false, iff_true, true_and, exists_eq', exists_eq, iff_self, and_true, not_false_eq_true, exists_eq_left', false_iff, ite_eq_right_iff] <;>
    (try split) <;> (try simp_all) <;> (try exact fit_nan _ _ _) <;> (next u v => cases u <;> cases v <;> decide)

/-- The sign bit. -/
def signBit : F → Option Bool
  | .nan => none
  | .inf s => some s
  | .fin s _ => some s

/-- C117.  Products and quotients that are not NaN, zeros and infinities included, are negative if exactly one operand is; a remainder has the
sign of the dividend. -/
theorem float_sign (p : Format) {a b : F} {s t : Bool} (ha : signBit a = some s) (hb : signBit b = some t) :
    (fop p .mul a b ≠ .nan → signBit (fop p .mul a b) = some (s != t)) ∧ (fop p .div a b ≠ .nan → signBit (fop p .div a b) = some (s != t)) ∧
    (fop p .rem a b ≠ .nan → signBit (fop p .rem a b) = some s) := by
  have hf : ∀ c m, signBit (fit p c m) = some c := by intro c m; unfold fit; split <;> rfl
  cases a <;> cases ha <;> cases b <;> cases hb <;> simp only [fop, fmul, fdiv, frem] <;> refine ⟨?_, ?_, ?_⟩ <;>
    intro h <;> (try rfl) <;> (try exact hf _ _) <;> (try exact absurd rfl h) <;> revert h <;>
    (repeat' split) <;> intro h <;> (try rfl) <;> (try exact hf _ _) <;> exact absurd rfl h

/-- C117.  Infinite operands: a sum with one is it, a difference too, products with numbers other than zero, and quotients of it by numbers;
a number by infinity is zero, the rest of a number is the number; a number other than zero by zero is infinite. -/
theorem float_infinite (p : Format) (s : Bool) {f : F} {x : Rat} (hf : Is f x) :
    fop p .add (.inf s) f = .inf s ∧ fop p .add f (.inf s) = .inf s ∧ fop p .add (.inf s) (.inf s) = .inf s ∧
    fop p .sub (.inf s) f = .inf s ∧ fop p .sub f (.inf s) = .inf (!s) ∧ fop p .sub (.inf s) (.inf !s) = .inf s ∧
    (x ≠ 0 → ∀ t, (∃ u, fop p .mul (.inf s) f = .inf u) ∧ (∃ u, fop p .mul f (.inf s) = .inf u) ∧ ∃ u, fop p .div f (.fin t 0) = .inf u) ∧
    (∀ t, ∃ u, fop p .mul (.inf s) (.inf t) = .inf u) ∧
    (∃ u, fop p .div (.inf s) f = .inf u) ∧ Is (fop p .div f (.inf s)) 0 ∧ fop p .rem f (.inf s) = f := by
  obtain ⟨n, m, rfl, rfl⟩ := hf
  refine ⟨rfl, rfl, ?_, rfl, rfl, ?_, ?_, fun t => ⟨_, rfl⟩, ⟨_, rfl⟩, ⟨n != s, 0, rfl, by split <;> grind⟩, rfl⟩
  · simp [fop, fadd]
  · simp [fop, fadd, fneg]
  · intro h t
    have hm : m ≠ 0 := fun e => h ((val_zero_iff n m).2 e)
    simp only [fop, fmul, fdiv]
    rw [if_neg hm, if_neg hm, if_pos trivial, if_neg hm]
    exact ⟨⟨_, rfl⟩, ⟨_, rfl⟩, ⟨_, rfl⟩⟩

/-- -1 / 0 and 1 / -0 are -infinity. -/
example : fop extended .div (.fin true 1) (.fin false 0) = .inf true ∧ fop extended .div (.fin false 1) (.fin true 0) = .inf true := by decide +kernel

/-- C117.  Addition and multiplication do not depend on the order of the operands. -/
theorem float_commutes (p : Format) (a b : F) : fop p .add a b = fop p .add b a ∧ fop p .mul a b = fop p .mul b a := by
  have hx : ∀ a b : Bool, (a != b) = (b != a) := by decide
  constructor
  · cases a <;> cases b <;> simp only [fop, fadd]
    · next a b => cases a <;> cases b <;> rfl
    · next a x b y => rw [Rat.add_comm, Bool.and_comm]
  · cases a <;> cases b <;> simp only [fop, fmul]
    · rw [hx]
    · next a b y => rw [hx]
    · next a x b => rw [hx]
    · next a x b y => rw [Rat.mul_comm, hx]

/-- The rest of a division needs no more bits than its operands. -/
theorem rem_fits {p : Format} {x y : Rat} (hx : 0 ≤ x) (hy : 0 < y) (fx : Fits p x) (fy : Fits p y) :
    0 ≤ x - y * ((x / y).floor : Int) ∧ Fits p (x - y * ((x / y).floor : Int)) ∧ x - y * ((x / y).floor : Int) ≤ x := by
  have f1 := Rat.floor_le (x / y)
  have f2 := Rat.lt_floor_add_one (x / y)
  have hq0 : 0 ≤ x / y := by rw [Rat.div_def]; exact Rat.mul_nonneg hx (Rat.le_of_lt (Rat.inv_pos.2 hy))
  have f0 : (0 : Rat) ≤ ((x / y).floor : Rat) := by
    have := Rat.floor_monotone hq0
    have e : (0 : Rat).floor = 0 := by decide +kernel
    rw [e] at this
    exact_mod_cast this
  rw [show (((x / y).floor + 1 : Int) : Rat) = ((x / y).floor : Rat) + 1 by simp, Rat.div_lt_iff hy] at f2
  have f1' : ((x / y).floor : Rat) * y ≤ x := by
    have := Rat.mul_le_mul_of_nonneg_right f1 (Rat.le_of_lt hy)
    rwa [← cast_div hy] at this
  have fy0 := Rat.mul_nonneg f0 (Rat.le_of_lt hy)
  generalize (x / y).floor = q at *
  refine ⟨by grind, ?_, by grind⟩
  obtain ⟨m, j, hm, hj, rfl⟩ := fx
  obtain ⟨n, k, hn, hk, rfl⟩ := fy
  have bound : ∀ (t c : Int) (e : Int), 0 ≤ (t : Rat) * 2 ^ e → (t : Rat) * 2 ^ e ≤ (c : Rat) * 2 ^ e → c.natAbs < 2 ^ p.bits → t.natAbs < 2 ^ p.bits := by
    intro t c e h0 h1 h2
    have he := B_pos e
    have g0 : 0 ≤ t := by
      have : (0 : Rat) ≤ t := Rat.not_lt.1 fun h => by have := (Rat.mul_lt_mul_right he).2 h; grind
      exact_mod_cast this
    have g1 : t ≤ c := by
      have : (t : Rat) ≤ c := Rat.not_lt.1 fun h => by have := (Rat.mul_lt_mul_right he).2 h; grind
      exact_mod_cast this
    omega
  rcases Int.le_total k j with h | h
  · -- in units of the divisor
    obtain ⟨d, hd⟩ := Int.eq_ofNat_of_zero_le (show 0 ≤ j - k by omega)
    have ej : (2 : Rat) ^ j = (((2 ^ d : Nat) : Int) : Rat) * 2 ^ k := by
      rw [show (((2 ^ d : Nat) : Int) : Rat) = ((2 ^ d : Nat) : Rat) from by simp, ← B_nat, ← B_add]; congr 1; omega
    have er : (m : Rat) * 2 ^ j - (n : Rat) * 2 ^ k * (q : Rat) = ((m * (2 ^ d : Nat) - n * q : Int) : Rat) * 2 ^ k := by
      rw [ej, Rat.intCast_sub, Rat.intCast_mul, Rat.intCast_mul]; grind
    refine ⟨_, k, ?_, hk, er⟩
    apply bound _ n k _ _ hn
    · rw [← er]; grind
    · rw [← er]; grind
  · obtain ⟨d, hd⟩ := Int.eq_ofNat_of_zero_le (show 0 ≤ k - j by omega)
    have ek : (2 : Rat) ^ k = (((2 ^ d : Nat) : Int) : Rat) * 2 ^ j := by
      rw [show (((2 ^ d : Nat) : Int) : Rat) = ((2 ^ d : Nat) : Rat) from by simp, ← B_nat, ← B_add]; congr 1; omega
    have er : (m : Rat) * 2 ^ j - (n : Rat) * 2 ^ k * (q : Rat) = ((m - n * (2 ^ d : Nat) * q : Int) : Rat) * 2 ^ j := by
      rw [ek, Rat.intCast_sub, Rat.intCast_mul, Rat.intCast_mul]; grind
    refine ⟨_, j, ?_, hj, er⟩
    apply bound _ m j _ _ hm
    · rw [← er]; grind
    · rw [← er]; grind

/-- C117.  What can be held stays so. -/
theorem float_held {p : Format} (hp : 0 < p.bits) (op : Op) {a b : F} (ha : Held p a) (hb : Held p b) : Held p (fop p op a b) := by
  have z0 : (0 : Rat) ≤ 0 := by grind
  have add : ∀ a b : F, Held p (fadd p a b) := by
    intro a b
    cases a <;> cases b <;> simp only [fadd] <;> try trivial
    · next u v => by_cases h : u = v
                  · rw [if_pos h]; trivial
                  · rw [if_neg h]; trivial
    · next a x b y =>
      by_cases h : val a x + val b y = 0
      · rw [if_pos h]; exact ⟨z0, fits_zero p, B_pos _⟩
      · rw [if_neg h]
        obtain ⟨c, m, e, h1, h2, -, -⟩ := ofRat_spec hp (val a x + val b y)
        rw [e]; exact fit_held _ h1 h2
  cases op with
  | add => exact add _ _
  | sub => exact add _ _
  | mul =>
    cases a <;> cases b <;> simp only [fop, fmul] <;> try trivial
    · next u v y => by_cases h : y = 0
                    · rw [if_pos h]; trivial
                    · rw [if_neg h]; trivial
    · next u y v => by_cases h : y = 0
                    · rw [if_pos h]; trivial
                    · rw [if_neg h]; trivial
    · next a x b y =>
      obtain ⟨h1, h2⟩ := roundMag_spec (p := p) hp (Rat.mul_nonneg ha.1 hb.1)
      exact fit_held _ h2 h1.1
  | div =>
    cases a <;> cases b <;> simp only [fop, fdiv] <;> try trivial
    · exact ⟨z0, fits_zero p, B_pos _⟩
    · next a x b y =>
      by_cases hy : y = 0
      · rw [if_pos hy]
        by_cases h : x = 0
        · rw [if_pos h]; trivial
        · rw [if_neg h]; trivial
      · rw [if_neg hy]
        have hb0 : 0 < y := by have := hb.1; grind
        obtain ⟨h1, h2⟩ := roundMag_spec (p := p) (x := x / y) hp (by
          rw [Rat.div_def]; exact Rat.mul_nonneg ha.1 (Rat.le_of_lt (Rat.inv_pos.2 hb0)))
        exact fit_held _ h2 h1.1
  | rem =>
    cases a <;> cases b <;> simp only [fop, frem] <;> try trivial
    · next a x b y =>
      by_cases hy : y = 0
      · rw [if_pos hy]; trivial
      · rw [if_neg hy]
        obtain ⟨h1, h2, h3⟩ := rem_fits ha.1 (by have := hb.1; grind) ha.2.1 hb.2.1
        exact ⟨h1, h2, by have := ha.2.2; grind⟩

theorem roundAny_mono {p : Format} (hp : 0 < p.bits) {x y : Rat} (h : x ≤ y) : roundAny p x ≤ roundAny p y := by
  have pos : ∀ z : Rat, 0 ≤ z → 0 ≤ roundMag p z := fun z hz => (roundMag_spec hp hz).2
  unfold roundAny
  split <;> split
  · have := round_mono (p := p) (x := -y) (y := -x) hp (by grind) (by grind)
    grind
  · have h1 := roundPos_nonneg (p := p) (x := -x) (by grind)
    have h2 := pos y (by grind)
    grind
  · grind
  · unfold roundMag
    split
    · split
      · grind
      · exact roundPos_nonneg (by grind)
    · split
      · grind
      · exact round_mono hp (by grind) h

theorem fit_le {p : Format} {a b : Bool} {m n : Rat} (hm : 0 ≤ m) (hn : 0 ≤ n) (h : val a m ≤ val b n) : Le (fit p a m) (fit p b n) := by
  have ht := B_pos p.hi
  unfold fit
  by_cases h1 : m < 2 ^ p.hi <;> by_cases h2 : n < 2 ^ p.hi <;> simp only [h1, h2, if_true, if_false] <;> cases a <;> cases b <;>
    simp only [Le, val, if_true, Bool.false_eq_true, if_false] at h ⊢ <;> grind

/-- C117.  Adding the same number keeps the order. -/
theorem float_add_mono {p : Format} (hp : 0 < p.bits) {a b c : F} {x y z : Rat} (hx : Is a x) (hy : Is b y) (hz : Is c z) (h : x ≤ y) :
    Le (fop p .add a c) (fop p .add b c) := by
  obtain ⟨na, ma, rfl, rfl⟩ := hx
  obtain ⟨nb, mb, rfl, rfl⟩ := hy
  obtain ⟨nc, mc, rfl, rfl⟩ := hz
  change val na ma ≤ val nb mb at h
  have one : ∀ (a b : Bool) (x y : Rat), ∃ c m, fadd p (.fin a x) (.fin b y) = fit p c m ∧ 0 ≤ m ∧ val c m = roundAny p (val a x + val b y) := by
    intro a b x y
    simp only [fadd]
    by_cases h : val a x + val b y = 0
    · rw [if_pos h, h]
      refine ⟨a && b, 0, by rw [fit, if_pos (B_pos _)], by grind, ?_⟩
      unfold roundAny roundMag
      rw [if_neg (by decide), if_pos rfl]
      exact (val_zero_iff _ _).2 rfl
    · rw [if_neg h]
      obtain ⟨c, m, e, h0, -, -, hr⟩ := ofRat_spec hp (val a x + val b y)
      exact ⟨c, m, e, h0, hr⟩
  obtain ⟨c1, m1, e1, p1, h1⟩ := one na nc ma mc
  obtain ⟨c2, m2, e2, p2, h2⟩ := one nb nc mb mc
  simp only [fop]
  rw [e1, e2]
  exact fit_le p1 p2 (by rw [h1, h2]; exact roundAny_mono hp (by grind))

/-- C117.  `++` and `--` of a Float add and subtract one, unary minus changes the sign. -/
theorem float_steps (p : Format) (f : F) :
    numIncr p (.flt f) = .ok (.flt (fop p .add f (.fin false 1))) ∧ numDecr p (.flt f) = .ok (.flt (fop p .sub f (.fin false 1))) ∧
    (∀ x, Is f x → ∃ g, numNeg (.flt f) = .ok (.flt g) ∧ Is g (-x)) := by
  refine ⟨rfl, rfl, ?_⟩
  rintro x ⟨n, m, rfl, rfl⟩
  exact ⟨_, rfl, !n, m, rfl, by cases n <;> simp⟩

/-- All doubles are held by a format that is no narrower. -/
theorem double_in {p : Format} (hp : 53 ≤ p.bits ∧ p.lo ≤ -1074 ∧ 1024 ≤ p.hi) (bits : UInt64) : Held p (ofDouble bits) := by
  have h53 : 2 ^ 53 ≤ 2 ^ p.bits := Nat.pow_le_pow_right (by decide) hp.1
  have hfr : bits.toNat % 2 ^ 52 < 2 ^ 52 := Nat.mod_lt _ (by decide)
  unfold ofDouble
  dsimp only
  generalize bits.toNat % 2 ^ 52 = fr at *
  have hex : bits.toNat / 2 ^ 52 % 2048 < 2048 := Nat.mod_lt _ (by decide)
  generalize bits.toNat / 2 ^ 52 % 2048 = ex at *
  by_cases h : ex = 2047
  · rw [if_pos h]
    by_cases h2 : fr = 0
    · rw [if_pos h2]; trivial
    · rw [if_neg h2]; trivial
  · rw [if_neg h]
    refine ⟨Rat.mul_nonneg (by exact_mod_cast Nat.zero_le _) (Rat.le_of_lt (B_pos _)), ?_, ?_⟩
    · by_cases h0 : ex = 0
      · rw [if_pos h0]
        exact ⟨fr, -1074, by simp only [Int.natAbs_natCast]; omega, hp.2.1, by rw [cast_nat]⟩
      · rw [if_neg h0]
        refine ⟨(2 ^ 52 + fr : Nat), ((ex - 1 : Nat) : Int) + -1074, by simp only [Int.natAbs_natCast]; omega, by have := hp.2.1; omega, ?_⟩
        rw [B_add, B_nat, Rat.natCast_mul, ← Rat.mul_assoc, cast_nat]
    · have key : ∀ a b c : Nat, a < 2 ^ 53 → b ≤ 2045 → c = 53 + 2045 → a * 2 ^ b < 2 ^ c := by
        rintro a b c h1 h2 rfl
        rw [Nat.pow_add]
        calc a * 2 ^ b < 2 ^ 53 * 2 ^ b := Nat.mul_lt_mul_of_pos_right h1 (Nat.two_pow_pos _)
          _ ≤ _ := Nat.mul_le_mul_left _ (Nat.pow_le_pow_right (by decide) h2)
      have hN : (if ex = 0 then fr else (2 ^ 52 + fr) * 2 ^ (ex - 1)) < 2 ^ 2098 := by
        split
        · have := key fr 0 2098 (by omega) (by omega) rfl
          rwa [Nat.pow_zero, Nat.mul_one] at this
        · exact key _ _ _ (by omega) (by omega) rfl
      generalize (if ex = 0 then fr else (2 ^ 52 + fr) * 2 ^ (ex - 1)) = N at *
      have h1 : (N : Rat) < (2 : Rat) ^ ((2098 : Nat) : Int) := by rw [B_nat]; exact Rat.natCast_lt_natCast.2 hN
      have h2 := (Rat.mul_lt_mul_right (B_pos (-1074))).2 h1
      rw [← B_add] at h2
      have h3 := B_mono (j := ((2098 : Nat) : Int) + -1074) (k := p.hi) (by have := hp.2.2; omega)
      grind

/-- C117.  All doubles are held. -/
theorem double_held {p : Format} (hp : Wide p) (bits : UInt64) : Held p (ofDouble bits) :=
  double_in ⟨Nat.le_trans (by decide) hp.1, hp.2⟩ bits

/-- The number a double stands for is the same as in comparisons (Val/Compare). -/
theorem double_same (bits : UInt64) :
    match LD.ofDouble bits with
    | .nan => ofDouble bits = .nan
    | .inf s => ofDouble bits = .inf s
    | .fin n => Is (ofDouble bits) (n * 2 ^ (-1074 : Int)) := by
  unfold LD.ofDouble ofDouble
  dsimp only
  generalize bits.toNat % 2 ^ 52 = fr
  generalize bits.toNat / 2 ^ 52 % 2048 = ex
  generalize bits.toNat / 2 ^ 63 = sg
  by_cases h : ex = 2047
  · rw [if_pos h, if_pos h]
    by_cases h2 : fr = 0
    · rw [if_pos h2, if_pos h2]
    · rw [if_neg h2, if_neg h2]
  · rw [if_neg h, if_neg h]
    dsimp only
    generalize (if ex = 0 then fr else (2 ^ 52 + fr) * 2 ^ (ex - 1)) = n
    refine ⟨_, _, rfl, ?_⟩
    by_cases hs : sg = 1
    · simp only [hs, decide_true, if_true, Rat.intCast_neg]; rw [cast_nat, Rat.neg_mul]
    · simp only [hs, decide_false, Bool.false_eq_true, if_false]; rw [cast_nat]

/-- C117 for two values one of which is a Float, neither NaN nor infinite: the operation is done and gives the nearest number (or is infinite if that
is too large). -/
theorem value_op {p : Format} (hp : Wide p) (op : Op) (ho : op ≠ .rem) {v w : Val} {a b : Num} (hv : Num.of v = some a) (hw : Num.of w = some b)
    (hf : v.ty = .flt ∨ w.ty = .flt) {x y : Rat} (hx : Is (a.f p) x) (hy : Is (b.f p) y) (hd : op = .div → y ≠ 0) :
    ∃ r, numOp p op a b = .ok (.flt r) ∧ Rounded p (exactOp op x y) r := by
  have hp0 : 0 < p.bits := by have := hp.1; omega
  have held : ∀ (v : Val) (a : Num), Num.of v = some a → Held p (a.f p) := by
    intro v a h
    have key : ∀ i : Int, Held p (ofInt p i) := by
      intro i
      obtain ⟨h1, h2⟩ := roundMag_spec (p := p) (x := ((i.natAbs : Int) : Rat)) hp0 (by exact_mod_cast Int.natCast_nonneg i.natAbs)
      exact fit_held _ h2 h1.1
    cases v <;> cases h
    · exact key _
    · exact key _
    · exact double_held hp _
  have flt : ∀ (v : Val) (a : Num), Num.of v = some a → v.ty = .flt → ∃ f, a = .flt f := by
    intro v a h ht
    cases v <;> cases h <;> cases ht
    exact ⟨_, rfl⟩
  rw [float_result p op a b (hf.imp (flt _ _ hv) (flt _ _ hw))]
  exact ⟨_, rfl, float_nearest hp0 op ho (held _ _ hv) (held _ _ hw) hx hy hd⟩

/-- The value that is a number that is no Float. -/
def Num.toVal : Num → Option Val
  | .int i => some (.int i)
  | .uint u => some (.uint u)
  | .flt _ => none

/-- C117.  Without a Float the operations are those of the integer types (Val/Compare). -/
theorem integers_same (p : Format) (fl : Op → Val → Val → Val) (op : Op) {a b : Num} {v w : Val} (hv : a.toVal = some v) (hw : b.toVal = some w) :
    Num.toVal <$> (numOp p op a b) = some <$> (arith fl op v w) ∧ Num.toVal <$> (numIncr p a) = some <$> (incr v) ∧
    Num.toVal <$> (numDecr p a) = some <$> (decr v) ∧ Num.toVal <$> (numNeg a) = some <$> (neg v) := by
  cases a <;> cases hv <;> cases b <;> cases hw <;> refine ⟨?_, ?_, ?_, ?_⟩ <;>
    simp only [numOp, arith, Val.ty, numIncr, incr, numDecr, decr, numNeg, neg, Num.u, asUnsigned] <;>
    first
    | rfl
    | (generalize Op.signed _ _ _ = o; cases o <;> rfl)
    | (generalize Op.unsigned _ _ _ = o; cases o <;> rfl)

example : Num.toVal <$> (numOp extended .sub (.int 3) (.uint 5)) = .ok (some (.uint (0 - 2))) := rfl

/-- 0.5 + 3 (an Integer) = 3.5. -/
example : numOp extended .add (.flt (ofDouble 0x3FE0000000000000)) (.int 3) = .ok (.flt (.fin false (7 / 2))) := by decide +kernel

/-- 1 / 10 is not exact: the nearest number of 64 bits. -/
example : numOp extended .div (.flt (.fin false 1)) (.int 10) = .ok (.flt (.fin false (14757395258967641293 / 2 ^ 67))) := by decide +kernel

/-- -7.5 % 2 = -1.5. -/
example : numOp extended .rem (.flt (.fin true (15 / 2))) (.int 2) = .ok (.flt (.fin true (3 / 2))) := by decide +kernel

/-- The largest number times two is infinite. -/
example : numOp extended .mul (.flt (.fin true ((2 ^ 64 - 1) * 2 ^ 16320))) (.int 2) = .ok (.flt (.inf true)) := by decide +kernel

/-- The smallest number divided by two is zero (the half between is even), three of them by two are two. -/
example : numOp extended .div (.flt (.fin false (2 ^ (-16445 : Int)))) (.int 2) = .ok (.flt (.fin false 0)) ∧
    numOp extended .div (.flt (.fin false (3 * 2 ^ (-16445 : Int)))) (.int 2) = .ok (.flt (.fin false (2 * 2 ^ (-16445 : Int)))) := by
  decide +kernel

/-- Refuted: sums do not depend on how they are grouped. -/
theorem add_grouped_false : ∃ a b c : F, Held extended a ∧ Held extended b ∧ Held extended c ∧
    fop extended .add (fop extended .add a b) c ≠ fop extended .add a (fop extended .add b c) := by
  refine ⟨.fin false (2 ^ 64), .fin false 1, .fin false 1, ⟨by decide +kernel, ⟨1, 64, by decide, by decide, by decide +kernel⟩, by decide +kernel⟩,
    ⟨by decide +kernel, ⟨1, 0, by decide, by decide, by decide +kernel⟩, by decide +kernel⟩, ⟨by decide +kernel, ⟨1, 0, by decide, by decide, by decide +kernel⟩, by decide +kernel⟩, by decide +kernel⟩

/-- Refuted: a sum taken as a double is the double nearest to the exact sum.  It is rounded twice: 1 + (2^-53 + 2^-70) gives 1, although
1 + 2^-52 is closer. -/
theorem double_nearest_false : ∃ (a b : UInt64) (x y z : Rat), Is (ofDouble a) x ∧ Is (ofDouble b) y ∧
    Is (toDouble (fop extended .add (ofDouble a) (ofDouble b))) z ∧ ¬ Nearest double (x + y) z := by
  refine ⟨0x3FF0000000000000, 0x3CA0000800000000, 1, 2 ^ (-53 : Int) + 2 ^ (-70 : Int), 1, ⟨false, 1, by decide +kernel, by decide +kernel⟩,
    ⟨false, 2 ^ (-53 : Int) + 2 ^ (-70 : Int), by decide +kernel, by decide +kernel⟩, ⟨false, 1, by decide +kernel, by decide +kernel⟩, ?_⟩
  intro h
  have := h.2 (1 + 2 ^ (-52 : Int)) ⟨2 ^ 52 + 1, -52, by decide, by decide, by decide +kernel⟩
  revert this
  decide +kernel

end Verif.Num
