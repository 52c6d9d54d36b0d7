import Verif.Args.ParseExamples
import Verif.Guess.Props
/-!
# C61: what a word on the command line means, by the type of the option
-/

namespace Verif.Args
open Verif JsonDrv Schema Guess

/-! ## Specification -/

/-- A word for an integer: blanks, a sign if any, and digits up to the end. -/
def IntWord (t a sg ds : Bytes) : Prop := t = a ++ sg ++ ds ∧ Guess.Blank a ∧ Sign sg ∧ Digits ds

/-- Its value. -/
def wordValue (sg ds : Bytes) : Int := if sg = minus then -(decVal 0 ds : Int) else decVal 0 ds

/-! ## Reading -/

theorem digits_noBlank {ds : Bytes} (h : Digits ds) (c : UInt8) (hc : ds.head? = some c) : isSpace c = false :=
  digit_noBlank (h.2 c (List.mem_of_mem_head? hc))

theorem intWord_read {t a sg ds : Bytes} (h : IntWord t a sg ds) :
    Ext.sign (t.dropWhile isSpace) = (decide (sg = minus), ds) ∧ spanDigits ds = (ds, []) := by
  obtain ⟨rfl, ha, hsg, hds⟩ := h
  refine ⟨?_, spanDigits_all hds.2⟩
  rw [List.append_assoc, dropWhile_blank ha, dropWhile_of_head]
  · obtain ⟨h1, h2⟩ := sign_append (r := ds) hsg (digits_head hds.2)
    exact Prod.ext h2 h1
  · intro c hc
    rcases hsg with rfl | rfl | rfl
    · exact digits_noBlank hds c hc
    · simp at hc; subst hc; rfl
    · simp at hc; subst hc; rfl

theorem intWord_of_read {t : Bytes} (h1 : (spanDigits (Ext.sign (t.dropWhile isSpace)).2).1 ≠ [])
    (h2 : (spanDigits (Ext.sign (t.dropWhile isSpace)).2).2 = []) : ∃ a sg ds, IntWord t a sg ds := by
  obtain ⟨a, e1, ha⟩ := split_dropWhile t
  obtain ⟨sg, e2, hsg⟩ := sign_split (t.dropWhile isSpace)
  obtain ⟨e3, h3, _⟩ := spanDigits_spec (Guess.sign (t.dropWhile isSpace)).2
  refine ⟨a, sg, (spanDigits (Ext.sign (t.dropWhile isSpace)).2).1, ?_, ha, hsg, h1, h3⟩
  have : (Guess.sign (t.dropWhile isSpace)).2 = (spanDigits (Ext.sign (t.dropWhile isSpace)).2).1 := by
    conv => lhs; rw [e3]
    rw [show (spanDigits (Guess.sign (t.dropWhile isSpace)).2).2 = [] from h2, List.append_nil]
  rw [List.append_assoc, ← this, ← e2, ← e1]

theorem strtoull_word {t a sg ds : Bytes} (h : IntWord t a sg ds) :
    Ext.strtoull t = some (Ext.signed64 (decide (sg = minus)) (decVal 0 ds), []) := by
  obtain ⟨e1, e2⟩ := intWord_read h
  unfold Ext.strtoull
  simp only [e1, e2, if_neg h.2.2.2.1]

theorem parseUInt_word {t a sg ds : Bytes} (h : IntWord t a sg ds) :
    parseUInt t = .ok (.uint (UInt64.ofNat (Ext.signed64 (decide (sg = minus)) (decVal 0 ds)))) := by
  unfold parseUInt
  rw [strtoull_word h]
  simp

theorem parseUInt_refused {t : Bytes} (h : ¬ ∃ a sg ds, IntWord t a sg ds) : parseUInt t = .throw .runtime := by
  unfold parseUInt Ext.strtoull
  dsimp only
  by_cases h1 : (spanDigits (Ext.sign (t.dropWhile isSpace)).2).1 = []
  · rw [if_pos h1]
  · rw [if_neg h1]
    by_cases h2 : (spanDigits (Ext.sign (t.dropWhile isSpace)).2).2 = []
    · exact absurd (intWord_of_read h1 h2) h
    · simp [h2]

/-! ## Theorems -/

/-- An entry that takes a word. -/
def Takes (c : Config) (ty : Ty) : Prop := hasArg c.action = true ∧ c.ty = ty

/-- C61.  A word for an integer option that is the text of an integer from -2^63 to 2^64 - 1 has exactly that value,
whatever its sign, leading zeros and blanks before it. -/
theorem integer_word_partial (w : World) {c : Config} (hc : Takes c .int) {t : Text} {a sg ds : Bytes} (h : IntWord t.bytes a sg ds)
    (hr : -2 ^ 63 ≤ wordValue sg ds ∧ wordValue sg ds < 2 ^ 64) :
    ∃ x, parseArg w c (some t) = .ok x ∧ intOf x = some (wordValue sg ds) := by
  obtain ⟨e1, e2⟩ := intWord_read h
  have hp : parseArg w c (some t) = parseInt t := by unfold parseArg; rw [if_pos hc.1, hc.2]
  rw [hp]
  unfold parseInt
  simp only [e1, e2]
  rw [if_neg h.2.2.2.1, if_neg (by simp)]
  rw [parseUInt_word h]
  unfold wordValue at hr ⊢
  generalize decVal 0 ds = n at hr ⊢
  by_cases hm : sg = minus
  · simp only [hm, if_true, decide_true] at hr ⊢
    have h5 : strtoll true n = -(n : Int) := by simp [strtoll]; omega
    rw [h5, if_neg (by omega)]
    refine ⟨_, rfl, ?_⟩
    simp only [intOf, Option.some.injEq]
    have hsz : Int64.size = 2 ^ 64 := rfl
    rw [Int64.toInt_ofInt, hsz, Int.bmod_eq_of_le] <;> omega
  · simp only [hm, if_false, decide_false] at hr ⊢
    have hu : intOf (.uint (UInt64.ofNat (Ext.signed64 false n))) = some (n : Int) := by
      simp only [intOf, Option.some.injEq, Ext.signed64]
      rw [if_neg (by omega)]
      simp only [Bool.false_eq_true, if_false]
      rw [UInt64.toNat_ofNat', Nat.mod_eq_of_lt (by omega)]
    by_cases h6 : n < 2 ^ 63
    · have h5 : strtoll false n = n := by simp [strtoll, h6]
      rw [h5]
      generalize (t.erange || _) = q
      by_cases h7 : (n : Int) = 2 ^ 63 - 1 ∧ q = true
      · rw [if_pos h7]
        exact ⟨_, rfl, hu⟩
      · rw [if_neg h7]
        refine ⟨_, rfl, ?_⟩
        simp only [intOf, Option.some.injEq]
        have hsz : Int64.size = 2 ^ 64 := rfl
        rw [Int64.toInt_ofInt, hsz, Int.bmod_eq_of_le] <;> omega
    · have h5 : strtoll false n = 2 ^ 63 - 1 := by simp [strtoll, h6]
      rw [h5, if_pos ⟨rfl, by simp; omega⟩]
      exact ⟨_, rfl, hu⟩

/-- C61.  A word for an unsigned option that is the text of an integer from 0 to 2^64 - 1 has exactly that value. -/
theorem unsigned_word_partial (w : World) {c : Config} (hc : Takes c .uint) {t : Text} {a sg ds : Bytes} (h : IntWord t.bytes a sg ds)
    (hr : 0 ≤ wordValue sg ds ∧ wordValue sg ds < 2 ^ 64) :
    ∃ u : UInt64, parseArg w c (some t) = .ok (.uint u) ∧ (u.toNat : Int) = wordValue sg ds := by
  have hp : parseArg w c (some t) = parseUInt t.bytes := by unfold parseArg; rw [if_pos hc.1, hc.2]
  rw [hp, parseUInt_word h]
  refine ⟨_, rfl, ?_⟩
  unfold wordValue at hr ⊢
  generalize decVal 0 ds = n at hr ⊢
  by_cases hm : sg = minus
  · simp only [hm, if_true, decide_true] at hr ⊢
    have : n = 0 := by omega
    subst this
    rfl
  · simp only [hm, if_false, decide_false] at hr ⊢
    simp only [Ext.signed64]
    rw [if_neg (by omega)]
    simp only [Bool.false_eq_true, if_false]
    rw [UInt64.toNat_ofNat', Nat.mod_eq_of_lt (by omega)]

/-- C61.  A word for an integer or unsigned option that is not the text of an integer is refused. -/
theorem not_integer_refused (w : World) {c : Config} (hc : Takes c .int ∨ Takes c .uint) {t : Text}
    (h : ¬ ∃ a sg ds, IntWord t.bytes a sg ds) : parseArg w c (some t) = .throw .runtime := by
  rcases hc with hc | hc
  · have hp : parseArg w c (some t) = parseInt t := by unfold parseArg; rw [if_pos hc.1, hc.2]
    rw [hp]
    unfold parseInt
    dsimp only
    by_cases h1 : (spanDigits (Ext.sign (t.bytes.dropWhile isSpace)).2).1 = []
    · rw [if_pos h1]
    · rw [if_neg h1]
      by_cases h2 : (spanDigits (Ext.sign (t.bytes.dropWhile isSpace)).2).2 = []
      · exact absurd (intWord_of_read h1 h2) h
      · rw [if_pos h2]
  · have hp : parseArg w c (some t) = parseUInt t.bytes := by unfold parseArg; rw [if_pos hc.1, hc.2]
    rw [hp, parseUInt_refused h]

/-- C61.  A word for a string option is that string, whatever it looks like; one for a boolean option is false
exactly if it reads as false; one for a number option is what `strtod` reads, if that is all of it. -/
theorem other_words (w : World) {c : Config} (ha : hasArg c.action = true) (t : Text) :
    (c.ty = .str → parseArg w c (some t) = .ok (.str t.bytes)) ∧
    (c.ty = .bool → ∃ b, parseArg w c (some t) = .ok (.bool b) ∧ (b = false ↔ ParseBool.ReadsFalse t.bytes)) ∧
    (c.ty = .flt → w.strtodEnd t.bytes = t.bytes.length → t.bytes ≠ [] → parseArg w c (some t) = .ok (.flt (w.fo.strtod t.bytes))) ∧
    (c.ty = .flt → w.strtodEnd t.bytes ≠ t.bytes.length → parseArg w c (some t) = .throw .runtime) := by
  refine ⟨fun h => ?_, fun h => ?_, fun h he hn => ?_, fun h he => ?_⟩
  · unfold parseArg; rw [if_pos ha, h]
  · refine ⟨ParseBool.parseBool t.bytes, ?_, ParseBool.parseBool_false_iff _⟩
    unfold parseArg; rw [if_pos ha, h]
  · unfold parseArg; rw [if_pos ha, h]
    dsimp only
    unfold parseFloat
    dsimp only
    rw [if_neg]
    rintro (⟨_, h1⟩ | h1)
    · rw [h1] at he
      exact hn (List.length_eq_zero_iff.1 he.symm)
    · exact h1 he
  · unfold parseArg; rw [if_pos ha, h]
    dsimp only
    unfold parseFloat
    dsimp only
    rw [if_pos (.inr he)]

/-- C61.  A word for an option without type is guessed (C55). -/
theorem untyped_word (w : World) {c : Config} (ha : hasArg c.action = true) (hty : c.ty = .null) (t : Text) :
    parseArg w c (some t) = .ok (guess w.fo t.erange t.bytes) := by
  unfold parseArg; rw [if_pos ha, hty]

/-! ### Non-vacuity and findings -/

/-- A storing option of this type. -/
def exTyped (ty : Ty) : Config := ⟨ty, [], .store, false, false, .map []⟩

/-- " +007" is an integer word of value 7; "7x" is none. -/
example : IntWord [32, 43, 48, 48, 55] [32] [43] [48, 48, 55] ∧ wordValue [43] [48, 48, 55] = 7 ∧
    parseArg exWorld (exTyped .int) (some ⟨[32, 43, 48, 48, 55], false⟩) = .ok (.int 7) ∧
    parseArg exWorld (exTyped .int) (some ⟨[55, 120], false⟩) = .throw .runtime := by
  refine ⟨⟨rfl, ?_, .inr (.inr rfl), by simp, by simp; decide⟩, by decide, rfl, rfl⟩
  intro c hc; simp at hc; subst hc; rfl

/-- C61, finding: a negative word for an unsigned option is accepted, modulo 2^64: -1 is 2^64 - 1. -/
theorem unsigned_minus_false (w : World) : parseArg w (exTyped .uint) (some ⟨[45, 49], false⟩) = .ok (.uint 0xFFFFFFFFFFFFFFFF) := rfl

/-- C61, finding: integers out of range are accepted and become the nearest limit. -/
theorem integer_saturates_false (w : World) {c : Config} {t : Text} {a sg ds : Bytes} (h : IntWord t.bytes a sg ds) :
    (Takes c .int → wordValue sg ds < -2 ^ 63 → parseArg w c (some t) = .ok (.int (Int64.ofInt (-2 ^ 63)))) ∧
    (Takes c .int ∨ Takes c .uint → 2 ^ 64 ≤ wordValue sg ds → parseArg w c (some t) = .ok (.uint 0xFFFFFFFFFFFFFFFF)) := by
  obtain ⟨e1, e2⟩ := intWord_read h
  have hu : 2 ^ 64 ≤ wordValue sg ds → parseUInt t.bytes = .ok (.uint 0xFFFFFFFFFFFFFFFF) ∧ sg ≠ minus ∧ 2 ^ 64 ≤ decVal 0 ds := by
    intro hv
    unfold wordValue at hv
    have hm : sg ≠ minus := by rintro rfl; rw [if_pos rfl] at hv; omega
    rw [if_neg hm] at hv
    refine ⟨?_, hm, by omega⟩
    rw [parseUInt_word h, Ext.signed64, if_pos (by omega)]
    rfl
  constructor
  · intro hc hv
    have hp : parseArg w c (some t) = parseInt t := by unfold parseArg; rw [if_pos hc.1, hc.2]
    rw [hp]
    unfold parseInt
    simp only [e1, e2]
    rw [if_neg h.2.2.2.1, if_neg (by simp)]
    unfold wordValue at hv
    have hm : sg = minus := by
      refine Decidable.byContradiction fun hm => ?_
      rw [if_neg hm] at hv; omega
    rw [if_pos hm] at hv
    have h5 : strtoll (decide (sg = minus)) (decVal 0 ds) = -(2 ^ 63) := by
      rw [hm]; simp only [strtoll, decide_true, if_true]; rw [if_neg (by omega)]
    rw [h5, if_neg (by omega)]
  · intro hc hv
    obtain ⟨h1, hm, h2⟩ := hu hv
    rcases hc with hc | hc
    · have hp : parseArg w c (some t) = parseInt t := by unfold parseArg; rw [if_pos hc.1, hc.2]
      rw [hp]
      unfold parseInt
      simp only [e1, e2]
      rw [if_neg h.2.2.2.1, if_neg (by simp), h1]
      have h5 : strtoll (decide (sg = minus)) (decVal 0 ds) = 2 ^ 63 - 1 := by
        simp only [strtoll, hm, decide_false, Bool.false_eq_true, if_false]; rw [if_neg (by omega)]
      rw [h5, if_pos ⟨rfl, by simp [hm]; omega⟩]
    · have hp : parseArg w c (some t) = parseUInt t.bytes := by unfold parseArg; rw [if_pos hc.1, hc.2]
      rw [hp, h1]

end Verif.Args
