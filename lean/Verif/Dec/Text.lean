import Verif.Dec.Nearest
import Verif.Json.RoundSpec
/-!
# The text of a double and the number it is read as
-/

namespace Verif.Dec
open Verif Verif.Num Verif.JsonTok

/-! ## Digits -/

theorem decVal_nil (acc : Nat) : decVal acc [] = acc := rfl
theorem decVal_zero (bs : Bytes) : decVal 0 (48 :: bs) = decVal 0 bs := by
  have h := decVal_append 0 [digitByte 0] bs
  rw [decVal_digit 0 0 (by decide)] at h
  exact h

theorem digs_length (k n : Nat) : (digs k n).length = k := by
  induction k generalizing n with
  | zero => rfl
  | succ k ih => simp [digs, ih]

theorem digs_digits (k n : Nat) : ∀ b ∈ digs k n, isDigit b = true := by
  induction k generalizing n with
  | zero => simp [digs]
  | succ k ih =>
    intro b hb
    rw [digs, List.mem_append, List.mem_singleton] at hb
    rcases hb with hb | rfl
    · exact ih _ b hb
    · exact isDigit_digitByte (by omega)

theorem digs_val {k n : Nat} (h : n < 10 ^ k) : decVal 0 (digs k n) = n := by
  induction k generalizing n with
  | zero =>
    obtain rfl : n = 0 := by rw [Nat.pow_zero] at h; omega
    rw [digs, decVal_nil]
  | succ k ih =>
    rw [Nat.pow_succ] at h
    rw [digs, decVal_append, ih (by omega), decVal_digit _ _ (by omega)]
    omega

theorem digs_head {k n : Nat} (h1 : 10 ^ k ≤ n) (h2 : n < 10 ^ (k + 1)) : ∃ d ds, digs (k + 1) n = d :: ds ∧ d ≠ 48 := by
  induction k generalizing n with
  | zero =>
    refine ⟨digitByte (n % 10), [], rfl, ?_⟩
    intro h
    have := digitByte_toNat (d := n % 10) (by omega)
    rw [h] at this
    simp at h1 h2
    have : (48 : UInt8).toNat = 48 := rfl
    omega
  | succ k ih =>
    rw [Nat.pow_succ] at h1
    rw [Nat.pow_succ] at h2
    obtain ⟨d, ds, e, hd⟩ := ih (n := n / 10) (by omega) (by omega)
    refine ⟨d, ds ++ [digitByte (n % 10)], ?_, hd⟩
    rw [digs, e]
    rfl

theorem decVal_zeros (k : Nat) (t : Bytes) : decVal 0 (List.replicate k 48 ++ t) = decVal 0 t := by
  induction k with
  | zero => rw [List.replicate_zero, List.nil_append]
  | succ k ih =>
    rw [List.replicate_succ, List.cons_append, decVal_zero, ih]

theorem expText_digits (n : Nat) : ∀ b ∈ expText n, isDigit b = true := by
  unfold expText
  split
  · exact digs_digits _ _
  · exact natDec_all_digits _

theorem expText_ne (n : Nat) : expText n ≠ [] := by
  unfold expText
  split
  · simp [digs]
  · exact natDec_ne_nil _

theorem expText_val (n : Nat) : decVal 0 (expText n) = n := by
  unfold expText
  split
  · exact digs_val (by omega)
  · exact decVal_natDec_acc _

/-! ## Reading -/

/-- The exponent part of a number. -/
def ExpPart (ex : Bytes) : Prop :=
  ex = [] ∨ ∃ x sn ds, ex = x :: (sn ++ ds) ∧ (x = 101 ∨ x = 69) ∧ (sn = [] ∨ sn = [43] ∨ sn = [45]) ∧
    ds ≠ [] ∧ ∀ b ∈ ds, isDigit b = true

/-- What may follow a number without being taken for a part of it. -/
def Apart (w : Bytes) : Prop := ∀ c t, w = c :: t → isDigit c = false ∧ c ≠ 101 ∧ c ≠ 69

theorem digit_not_sign {c : UInt8} (h : isDigit c = true) : c ≠ 45 ∧ c ≠ 43 := by
  constructor <;> (rintro rfl; exact absurd h (by decide))

theorem signOf_digits {c : UInt8} (t : Bytes) (h : isDigit c = true) : signOf (c :: t) = (false, c :: t) := by
  obtain ⟨h1, h2⟩ := digit_not_sign h
  unfold signOf
  split
  · rename_i e; cases e; exact absurd rfl h1
  · rename_i e; cases e; exact absurd rfl h2
  · rfl

theorem signOf_minus (t : Bytes) : signOf (45 :: t) = (true, t) := rfl
theorem signOf_plus (t : Bytes) : signOf (43 :: t) = (false, t) := rfl

theorem span_apart {ds w : Bytes} (hd : ∀ b ∈ ds, isDigit b = true) (hw : ∀ c t, w = c :: t → isDigit c = false) :
    spanDigits (ds ++ w) = (ds, w) := by
  cases w with
  | nil => rw [List.append_nil]; exact spanDigits_all hd
  | cons c t =>
    have hc := hw c t rfl
    clear hw
    induction ds with
    | nil => simp [spanDigits, hc]
    | cons d ds ih =>
      rw [List.cons_append, spanDigits, if_pos (hd d (by simp)), ih (fun b hb => hd b (by simp [hb]))]

theorem exp_apart {ex w : Bytes} (he : ExpPart ex) (hw : Apart w) : expOf (ex ++ w) = expOf ex ∧
    ∀ c t, ex ++ w = c :: t → isDigit c = false := by
  rcases he with rfl | ⟨x, sn, ds, rfl, hx, hsn, hne, hds⟩
  · refine ⟨?_, fun c t h => (hw c t h).1⟩
    rw [List.nil_append]
    cases w with
    | nil => rfl
    | cons c t =>
      obtain ⟨-, h1, h2⟩ := hw c t rfl
      rw [expOf, if_neg (by rintro (h | h) <;> contradiction)]
      rfl
  · refine ⟨?_, ?_⟩
    · have key : ∀ v : Bytes, Apart v → expOf (x :: (sn ++ ds) ++ v) =
          if sn = [45] then -(decVal 0 ds : Int) else (decVal 0 ds : Int) := by
        intro v hv
        rw [List.cons_append, expOf, if_pos hx]
        have hsp := span_apart hds (w := v) (fun c t h => (hv c t h).1)
        obtain ⟨c, cs, rfl⟩ : ∃ c cs, ds = c :: cs := by cases ds with
          | nil => exact absurd rfl hne
          | cons c cs => exact ⟨c, cs, rfl⟩
        rcases hsn with rfl | rfl | rfl
        · rw [List.nil_append, List.cons_append, signOf_digits _ (hds c (by simp))]
          dsimp only
          rw [List.cons_append] at hsp
          rw [hsp]
          simp
        · rw [show [43] ++ (c :: cs) ++ v = 43 :: (c :: cs ++ v) from rfl, signOf_plus]
          dsimp only
          rw [hsp]
          simp
        · rw [show [45] ++ (c :: cs) ++ v = 45 :: (c :: cs ++ v) from rfl, signOf_minus]
          dsimp only
          rw [hsp]
          simp
      have := key [] (fun _ _ h => by cases h)
      rw [List.append_nil] at this
      rw [key w hw, this]
    · intro c t h
      cases h
      rcases hx with rfl | rfl <;> decide

theorem special_digits {c : UInt8} (neg : Bool) (t : Bytes) (h : isDigit c = true) : special neg (c :: t) = none := by
  have hl : lower c = c := by
    unfold lower
    rw [if_neg]
    simp only [isDigit, Bool.and_eq_true, decide_eq_true_eq, UInt8.le_iff_toNat_le] at h ⊢
    have e1 : (57 : UInt8).toNat = 57 := rfl
    have e2 : (65 : UInt8).toNat = 65 := rfl
    omega
  unfold special
  rw [if_neg, if_neg]
  all_goals
    rw [List.take_succ_cons, List.map_cons, hl]
    intro e
    rw [(List.cons.inj e).1] at h
    exact absurd h (by decide)

/-- How `strtod` reads a number with a point. -/
theorem strtod_parts {sg ip fp ex w : Bytes} (hs : sg = [] ∨ sg = [45]) (h0 : ip ≠ []) (hi : ∀ b ∈ ip, isDigit b = true)
    (hf : ∀ b ∈ fp, isDigit b = true) (he : ExpPart ex) (hw : Apart w) :
    strtod (sg ++ ip ++ [46] ++ fp ++ ex ++ w) =
      encode (nearestDouble (decide (sg = [45])) (decVal 0 (ip ++ fp)) (expOf ex - (fp.length : Int))) := by
  obtain ⟨h1, h2⟩ := exp_apart he hw
  obtain ⟨c, cs, rfl⟩ : ∃ c cs, ip = c :: cs := by cases ip with
    | nil => exact absurd rfl h0
    | cons c cs => exact ⟨c, cs, rfl⟩
  have hc := hi c (by simp)
  have hsp : isSpace c = false := by
    simp only [isDigit, Bool.and_eq_true, decide_eq_true_eq, UInt8.le_iff_toNat_le] at hc
    have e1 : (48 : UInt8).toNat = 48 := rfl
    have e3 : (9 : UInt8).toNat = 9 := rfl
    have e4 : (13 : UInt8).toNat = 13 := rfl
    simp only [isSpace, Bool.or_eq_false_iff, Bool.and_eq_false_iff, beq_eq_false_iff_ne, decide_eq_false_iff_not,
      UInt8.le_iff_toNat_le]
    refine ⟨?_, .inr (by omega)⟩
    rintro rfl
    have : (32 : UInt8).toNat = 32 := rfl
    omega
  have hsig : signOf ((sg ++ (c :: cs) ++ [46] ++ fp ++ ex ++ w).dropWhile isSpace) =
      (decide (sg = [45]), (c :: cs) ++ (46 :: (fp ++ (ex ++ w)))) := by
    rcases hs with rfl | rfl
    · have e : ([] ++ (c :: cs) ++ [46] ++ fp ++ ex ++ w : Bytes) = c :: (cs ++ (46 :: (fp ++ (ex ++ w)))) := by simp
      rw [e, List.dropWhile_cons_of_neg (by simp [hsp]), signOf_digits _ hc]
      rfl
    · have e : ([45] ++ (c :: cs) ++ [46] ++ fp ++ ex ++ w : Bytes) = 45 :: ((c :: cs) ++ (46 :: (fp ++ (ex ++ w)))) := by simp
      rw [e, List.dropWhile_cons_of_neg (by decide)]
      rfl
  unfold strtod
  simp only [hsig]
  rw [List.cons_append, special_digits _ _ hc, ← List.cons_append]
  dsimp only
  rw [span_apart hi (by rintro d t h; cases h; decide)]
  simp only [fracOf]
  rw [span_apart hf h2]
  simp only
  rw [if_neg (by simp), h1]

/-! ## The bits -/

theorem encMag_spec {ex fr : Nat} (hf : fr < 2 ^ 52) :
    encMag (if ex = 0 then fr else (2 ^ 52 + fr) * 2 ^ (ex - 1)) = ex * 2 ^ 52 + fr := by
  unfold encMag
  by_cases h : ex = 0
  · rw [if_pos h, if_pos hf, h]; simp
  · rw [if_neg h]
    have hp : 0 < 2 ^ (ex - 1) := Nat.two_pow_pos _
    have hlog : ((2 ^ 52 + fr) * 2 ^ (ex - 1)).log2 = 52 + (ex - 1) := by
      have hne : (2 ^ 52 + fr) * 2 ^ (ex - 1) ≠ 0 := Nat.ne_of_gt (Nat.mul_pos (by omega) hp)
      rw [Nat.log2_eq_iff hne]
      constructor
      · rw [Nat.pow_add]; exact Nat.mul_le_mul_right _ (by omega)
      · rw [show 52 + (ex - 1) + 1 = 53 + (ex - 1) by omega, Nat.pow_add]
        exact Nat.mul_lt_mul_of_pos_right (by omega) hp
    rw [if_neg, hlog]
    · rw [show 52 + (ex - 1) - 52 = ex - 1 by omega, Nat.mul_div_cancel _ hp]
      rw [show ex - 1 + 1 = ex by omega]
      omega
    · have : 2 ^ 52 * 1 ≤ (2 ^ 52 + fr) * 2 ^ (ex - 1) := Nat.mul_le_mul (by omega) hp
      omega

/-- A finite double is the one with these bits. -/
theorem encode_ofDouble {bits : UInt64} {neg : Bool} {mag : Rat} (h : ofDouble bits = .fin neg mag) :
    encode (.fin neg mag) = bits := by
  unfold ofDouble at h
  dsimp only at h
  have hb := bits.toNat_lt
  by_cases he : bits.toNat / 2 ^ 52 % 2048 = 2047
  · rw [if_pos he] at h
    split at h <;> cases h
  · rw [if_neg he] at h
    simp only [F.fin.injEq] at h
    obtain ⟨rfl, rfl⟩ := h
    have hN := encMag_spec (ex := bits.toNat / 2 ^ 52 % 2048) (fr := bits.toNat % 2 ^ 52) (Nat.mod_lt _ (by decide))
    generalize hk : (if bits.toNat / 2 ^ 52 % 2048 = 0 then bits.toNat % 2 ^ 52
      else (2 ^ 52 + bits.toNat % 2 ^ 52) * 2 ^ (bits.toNat / 2 ^ 52 % 2048 - 1)) = k at *
    have hfl : ((k : Rat) * 2 ^ (-1074 : Int) * 2 ^ (1074 : Int)).floor.toNat = k := by
      rw [Rat.mul_assoc, ← B_add, show (-1074 : Int) + 1074 = 0 by decide, Rat.zpow_zero, Rat.mul_one, ← cast_nat, Rat.floor_intCast]
      rfl
    simp only [encode]
    rw [hfl, hN]
    apply UInt64.toNat_inj.1
    rw [UInt64.toNat_ofNat', Nat.mod_eq_of_lt]
    · by_cases hs : bits.toNat / 2 ^ 63 = 1
      · simp only [hs, decide_true, if_true]; omega
      · simp only [hs, decide_false, Bool.false_eq_true, if_false]; omega
    · split <;> omega

/-! ## Printing -/

/-- The parts of a printed number that is not zero. -/
theorem layout_parts {P q : Nat} {X : Int} (hP : 0 < P) (h1 : 10 ^ (P - 1) ≤ q) (h2 : q < 10 ^ P) :
    ∃ ip fp ex, layout P q X = ip ++ [46] ++ fp ++ ex ∧ IntPart ip ∧ (∀ b ∈ fp, isDigit b = true) ∧ ExpPart ex ∧
      decVal 0 (ip ++ fp) = q ∧ expOf ex - (fp.length : Int) = X + 1 - (P : Int) := by
  have hd := digs_digits P q
  have hv := digs_val h2
  have hl := digs_length P q
  obtain ⟨d, ds, hds, hd0⟩ : ∃ d ds, digs P q = d :: ds ∧ d ≠ 48 := by
    obtain ⟨k, rfl⟩ : ∃ k, P = k + 1 := ⟨P - 1, by omega⟩
    exact digs_head h1 h2
  unfold layout
  split
  · split
    · refine ⟨(digs P q).take (X.toNat + 1), (digs P q).drop (X.toNat + 1), [], by simp, ?_, ?_, .inl rfl, ?_, ?_⟩
      · refine .inr ⟨d, ds.take X.toNat, by rw [hds]; rfl, hd0, ?_⟩
        intro b hb
        apply hd
        rw [hds]
        rcases List.mem_cons.1 hb with rfl | hb
        · simp
        · exact List.mem_cons_of_mem _ (List.mem_of_mem_take hb)
      · intro b hb; exact hd b (List.mem_of_mem_drop hb)
      · rw [List.take_append_drop, hv]
      · rw [List.length_drop, hl]
        simp only [expOf]
        omega
    · refine ⟨[48], List.replicate (-X - 1).toNat 48 ++ digs P q, [], by simp, .inl rfl, ?_, .inl rfl, ?_, ?_⟩
      · intro b hb
        rcases List.mem_append.1 hb with hb | hb
        · rw [List.eq_of_mem_replicate hb]; decide
        · exact hd b hb
      · rw [show ([48] ++ (List.replicate (-X - 1).toNat 48 ++ digs P q) : Bytes) =
          List.replicate ((-X - 1).toNat + 1) 48 ++ digs P q by simp [List.replicate_succ], decVal_zeros, hv]
      · simp only [List.length_append, List.length_replicate, hl, expOf]
        omega
  · refine ⟨(digs P q).take 1, (digs P q).drop 1, 101 :: ([if X < 0 then 45 else 43] ++ expText X.natAbs), rfl, ?_, ?_, ?_, ?_, ?_⟩
    · refine .inr ⟨d, [], by rw [hds]; rfl, hd0, ?_⟩
      intro b hb
      apply hd
      rw [hds]
      simp only [List.mem_singleton] at hb
      simp [hb]
    · intro b hb; exact hd b (List.mem_of_mem_drop hb)
    · refine .inr ⟨101, [if X < 0 then 45 else 43], expText X.natAbs, rfl, .inl rfl, ?_, expText_ne _, expText_digits _⟩
      split <;> simp
    · rw [List.take_append_drop, hv]
    · rw [List.length_drop, hl]
      have hsp : spanDigits (expText X.natAbs) = (expText X.natAbs, []) := spanDigits_all (expText_digits _)
      have : expOf (101 :: ([if X < 0 then 45 else 43] ++ expText X.natAbs)) = X := by
        rw [expOf, if_pos (.inl rfl)]
        by_cases hX : X < 0
        · rw [if_pos hX]
          rw [show [45] ++ expText X.natAbs = 45 :: expText X.natAbs from rfl, signOf_minus]
          simp only [hsp, if_neg (expText_ne _), expText_val, if_true]
          omega
        · rw [if_neg hX]
          rw [show [43] ++ expText X.natAbs = 43 :: expText X.natAbs from rfl, signOf_plus]
          simp only [hsp, if_neg (expText_ne _), expText_val, Bool.false_eq_true, if_false]
          omega
      rw [this]
      omega

/-- The parts of a printed double. -/
theorem print_parts {bits : UInt64} {neg : Bool} {mag : Rat} (p : Nat) (h : ofDouble bits = .fin neg mag) (h0 : 0 ≤ mag) :
    ∃ sg ip fp ex, printDouble p bits = sg ++ ip ++ [46] ++ fp ++ ex ∧ sg = (if neg then [45] else []) ∧ IntPart ip ∧
      (∀ b ∈ fp, isDigit b = true) ∧ ExpPart ex ∧
      ((decVal 0 (ip ++ fp) : Nat) : Rat) * 10 ^ (expOf ex - (fp.length : Int)) =
        if mag = 0 then 0 else ((sig (max p 1) mag).1 : Rat) * 10 ^ ((sig (max p 1) mag).2 + 1 - ((max p 1 : Nat) : Int)) := by
  unfold printDouble
  simp only [h]
  by_cases hz : mag = 0
  · refine ⟨_, [48], List.replicate (max p 1 - 1) 48, [], by rw [if_pos hz]; simp, rfl, .inl rfl, ?_, .inl rfl, ?_⟩
    · intro b hb; rw [List.eq_of_mem_replicate hb]; decide
    · rw [if_pos hz]
      have := decVal_zeros (max p 1 - 1 + 1) []
      rw [List.append_nil, List.replicate_succ] at this
      rw [List.singleton_append, this]
      rw [decVal_nil]
      exact Rat.zero_mul _
  · have hm : 0 < mag := by grind
    obtain ⟨h1, h2, -⟩ := sig_spec (P := max p 1) (by omega) hm
    obtain ⟨ip, fp, ex, e, a1, a2, a3, a4, a5⟩ := layout_parts (X := (sig (max p 1) mag).2) (by omega) h1 h2
    refine ⟨_, ip, fp, ex, by rw [if_neg hz, e]; simp, rfl, a1, a2, a3, ?_⟩
    rw [if_neg hz, a4, a5]

end Verif.Dec
