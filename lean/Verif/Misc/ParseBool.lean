import Verif.Base.Outcome
/-!
# C30 Boolean text conversion (src/ParseBool.cc)

`isspace` and `tolower` are those of the C locale (bytes from 0x80 are neither blank nor letters;
the code passes a possibly negative `char`, which the C standard leaves undefined and common
libraries treat like that).
-/

namespace Verif.ParseBool
open Verif

/-- `isspace`. -/
def isSpace (c : UInt8) : Bool := c == 32 || (9 ≤ c && c ≤ 13)

/-- `tolower`. -/
def toLower (c : UInt8) : UInt8 := if 65 ≤ c && c ≤ 90 then c + 32 else c

/-- `while (cur != end && cmpstr[i] != 0 && tolower(*cur) == cmpstr[i])`
(src/ParseBool.cc 46-48). -/
def skipMatch : Bytes → Bytes → Bytes
  | c :: cs, w :: ws => if toLower c = w then skipMatch cs ws else c :: cs
  | cs, _ => cs

/-- `ParseBool` (src/ParseBool.cc 24-54). -/
def parseBool (s : Bytes) : Bool :=
  match s.dropWhile isSpace with
  | [] => true
  | c :: cs =>
    if toLower c = 110 then                                       -- "no"
      !((skipMatch cs [111]).dropWhile isSpace).isEmpty
    else if toLower c = 102 then                                  -- "false"
      !((skipMatch cs [97, 108, 115, 101]).dropWhile isSpace).isEmpty
    else if c = 48 then
      !((cs.dropWhile (· == 48)).dropWhile isSpace).isEmpty
    else true

/-! ## Specification -/

/-- Blanks only. -/
def Blank (s : Bytes) : Prop := ∀ c ∈ s, isSpace c = true

/-- `s` spells, in any letter case, a non-empty beginning of `word`. -/
def Abbreviates (s word : Bytes) : Prop := s ≠ [] ∧ s.map toLower <+: word

/-- A non-empty run of zeros. -/
def Zeros (s : Bytes) : Prop := s ≠ [] ∧ ∀ c ∈ s, c = 48

/-- What reads as false. -/
def ReadsFalse (s : Bytes) : Prop :=
  ∃ a w b, s = a ++ w ++ b ∧ Blank a ∧ Blank b ∧
    (Abbreviates w [110, 111] ∨ Abbreviates w [102, 97, 108, 115, 101] ∨ Zeros w)

/-! ## Proof -/

theorem dropWhile_nil_iff {p : UInt8 → Bool} (s : Bytes) :
    s.dropWhile p = [] ↔ ∀ c ∈ s, p c = true := by
  induction s with
  | nil => simp
  | cons c s ih =>
    cases h : p c with
    | true => rw [List.dropWhile_cons_of_pos h, ih]; simp [h]
    | false => rw [List.dropWhile_cons_of_neg (by simp [h])]; simp [h]

theorem dropWhile_isEmpty_iff {p : UInt8 → Bool} (s : Bytes) :
    (s.dropWhile p).isEmpty = true ↔ ∀ c ∈ s, p c = true := by
  rw [List.isEmpty_iff]; exact dropWhile_nil_iff s

/-- Lower-case letters, none of them blank. -/
def Letters (w : Bytes) : Prop := ∀ c ∈ w, 97 ≤ c ∧ c ≤ 122

theorem letter_not_blank {c : UInt8} (h : 97 ≤ toLower c ∧ toLower c ≤ 122) : isSpace c = false := by
  have key : ∀ n : Fin 256, 97 ≤ toLower (UInt8.ofNat n.val) ∧ toLower (UInt8.ofNat n.val) ≤ 122 →
      isSpace (UInt8.ofNat n.val) = false := by decide +kernel
  have h2 := key ⟨c.toNat, c.toNat_lt⟩
  simp only [UInt8.ofNat_toNat] at h2
  exact h2 h

theorem skipMatch_blank_iff (ws : Bytes) (hw : Letters ws) (cs : Bytes) :
    ((skipMatch cs ws).dropWhile isSpace).isEmpty = true ↔
      ∃ x b, cs = x ++ b ∧ Blank b ∧ x.map toLower <+: ws := by
  induction ws generalizing cs with
  | nil =>
    have : skipMatch cs [] = cs := by cases cs <;> rfl
    rw [this, dropWhile_isEmpty_iff]
    constructor
    · intro h; exact ⟨[], cs, rfl, h, by simp⟩
    · rintro ⟨x, b, rfl, hb, hx⟩
      simp only [List.prefix_nil, List.map_eq_nil_iff] at hx
      subst hx; exact hb
  | cons w ws ih =>
    cases cs with
    | nil => simp only [skipMatch]; exact ⟨fun _ => ⟨[], [], rfl, by simp [Blank], by simp⟩, fun _ => rfl⟩
    | cons c cs =>
      simp only [skipMatch]
      have hws : Letters ws := fun c hc => hw c (by simp [hc])
      by_cases hc : toLower c = w
      · rw [if_pos hc, ih hws]
        constructor
        · rintro ⟨x, b, rfl, hb, hx⟩
          exact ⟨c :: x, b, rfl, hb, by simp [hc, hx]⟩
        · rintro ⟨x, b, hxb, hb, hx⟩
          cases x with
          | nil =>
            simp only [List.nil_append] at hxb
            have hcs := hb c (by rw [← hxb]; simp)
            have := letter_not_blank (c := c) (by rw [hc]; exact hw w (by simp))
            rw [this] at hcs; cases hcs
          | cons y x =>
            simp only [List.cons_append, List.cons.injEq] at hxb
            obtain ⟨rfl, rfl⟩ := hxb
            simp only [List.map_cons, List.cons_prefix_cons] at hx
            exact ⟨x, b, rfl, hb, hx.2⟩
      · rw [if_neg hc, dropWhile_isEmpty_iff]
        constructor
        · intro h; exact ⟨[], c :: cs, rfl, h, by simp⟩
        · rintro ⟨x, b, hxb, hb, hx⟩
          cases x with
          | nil => simp only [List.nil_append] at hxb; rw [hxb]; exact hb
          | cons y x =>
            simp only [List.cons_append, List.cons.injEq] at hxb
            simp only [List.map_cons, List.cons_prefix_cons] at hx
            exact absurd (by rw [hxb.1]; exact hx.1) hc

theorem zeros_blank_iff (cs : Bytes) :
    ((cs.dropWhile (· == 48)).dropWhile isSpace).isEmpty = true ↔
      ∃ x b, cs = x ++ b ∧ Blank b ∧ ∀ c ∈ x, c = 48 := by
  induction cs with
  | nil => exact ⟨fun _ => ⟨[], [], rfl, by simp [Blank], by simp⟩, fun _ => rfl⟩
  | cons c cs ih =>
    by_cases hc : c = 48
    · subst hc
      rw [List.dropWhile_cons_of_pos (by decide), ih]
      constructor
      · rintro ⟨x, b, rfl, hb, hx⟩
        exact ⟨48 :: x, b, rfl, hb, by simpa using hx⟩
      · rintro ⟨x, b, hxb, hb, hx⟩
        cases x with
        | nil =>
          simp only [List.nil_append] at hxb
          exact absurd (hb 48 (by rw [← hxb]; simp)) (by decide)
        | cons y x =>
          simp only [List.cons_append, List.cons.injEq] at hxb
          exact ⟨x, b, hxb.2, hb, fun c hc => hx c (by simp [hc])⟩
    · rw [List.dropWhile_cons_of_neg (by simpa using hc), dropWhile_isEmpty_iff]
      constructor
      · intro h; exact ⟨[], c :: cs, rfl, h, by simp⟩
      · rintro ⟨x, b, hxb, hb, hx⟩
        cases x with
        | nil => simp only [List.nil_append] at hxb; rw [hxb]; exact hb
        | cons y x =>
          simp only [List.cons_append, List.cons.injEq] at hxb
          exact absurd (by rw [hxb.1]; exact hx y (by simp)) hc

theorem abbr_cons_iff {c : UInt8} {w0 : UInt8} {ws : Bytes} {x : Bytes} :
    Abbreviates (c :: x) (w0 :: ws) ↔ toLower c = w0 ∧ x.map toLower <+: ws := by
  simp [Abbreviates]

/-- Splitting off the leading blanks when the first other byte is known not to be blank. -/
theorem split_blank {s a : Bytes} {c : UInt8} {cs w b : Bytes} (ha : Blank a)
    (hs : s.dropWhile isSpace = c :: cs) (h : s = a ++ w ++ b) (hw : w ≠ [])
    (hnb : ∀ x ∈ w, isSpace x = false) : c :: cs = w ++ b := by
  subst h
  obtain ⟨y, ys, rfl⟩ := List.exists_cons_of_ne_nil hw
  rw [List.append_assoc, List.dropWhile_append_of_pos ha, List.cons_append,
    List.dropWhile_cons_of_neg (by simp [hnb y (by simp)])] at hs
  exact hs.symm

theorem abbr_not_blank {w word : Bytes} (hl : Letters word) (h : Abbreviates w word) :
    ∀ x ∈ w, isSpace x = false := by
  intro x hx
  apply letter_not_blank
  exact hl _ (h.2.subset (List.mem_map_of_mem hx))

theorem zeros_not_blank {w : Bytes} (h : Zeros w) : ∀ x ∈ w, isSpace x = false := by
  intro x hx; rw [h.2 x hx]; rfl

/-- **C30.** A string converts to false exactly when it is, between blanks, a non-empty beginning
of "no" or "false" in any letter case or a run of zeros. -/
theorem parseBool_false_iff (s : Bytes) : parseBool s = false ↔ ReadsFalse s := by
  have hlno : Letters [110, 111] := by unfold Letters; decide
  have hlfalse : Letters [102, 97, 108, 115, 101] := by unfold Letters; decide
  have hsplit : s = s.takeWhile isSpace ++ s.dropWhile isSpace := (List.takeWhile_append_dropWhile).symm
  have hblank : Blank (s.takeWhile isSpace) := fun c hc => by
    have := List.all_takeWhile (p := isSpace) (l := s)
    rw [List.all_eq_true] at this
    exact this c hc
  simp only [parseBool]
  cases hd : s.dropWhile isSpace with
  | nil =>
    simp only [Bool.true_eq_false, false_iff]
    rintro ⟨a, w, b, rfl, _, _, hw⟩
    have hall := (dropWhile_nil_iff _).mp hd
    rcases hw with hw | hw | hw
    · obtain ⟨x, xs, rfl⟩ := List.exists_cons_of_ne_nil hw.1
      have h1 := abbr_not_blank hlno hw x (by simp)
      rw [hall x (by simp)] at h1; cases h1
    · obtain ⟨x, xs, rfl⟩ := List.exists_cons_of_ne_nil hw.1
      have h1 := abbr_not_blank hlfalse hw x (by simp)
      rw [hall x (by simp)] at h1; cases h1
    · obtain ⟨x, xs, rfl⟩ := List.exists_cons_of_ne_nil hw.1
      have h1 := zeros_not_blank hw x (by simp)
      rw [hall x (by simp)] at h1; cases h1
  | cons c cs =>
    -- the three ways a false text can start
    have key : ReadsFalse s ↔
        ∃ w b, c :: cs = w ++ b ∧ Blank b ∧
          (Abbreviates w [110, 111] ∨ Abbreviates w [102, 97, 108, 115, 101] ∨ Zeros w) := by
      constructor
      · rintro ⟨a, w, b, hs, ha, hb, hw⟩
        have hne : w ≠ [] := by rcases hw with h | h | h <;> exact h.1
        have hnb : ∀ x ∈ w, isSpace x = false := by
          rcases hw with h | h | h
          · exact abbr_not_blank hlno h
          · exact abbr_not_blank hlfalse h
          · exact zeros_not_blank h
        exact ⟨w, b, split_blank ha hd hs hne hnb, hb, hw⟩
      · rintro ⟨w, b, hwb, hb, hw⟩
        refine ⟨s.takeWhile isSpace, w, b, ?_, hblank, hb, hw⟩
        rw [List.append_assoc, ← hwb, ← hd]; exact hsplit
    rw [key]
    simp only
    have hcons : ∀ (P : Bytes → Prop), (∀ w, P w → w ≠ []) →
        ((∃ w b, c :: cs = w ++ b ∧ Blank b ∧ P w) ↔ ∃ x b, cs = x ++ b ∧ Blank b ∧ P (c :: x)) := by
      intro P hP
      constructor
      · rintro ⟨w, b, h, hb, hw⟩
        obtain ⟨y, ys, rfl⟩ := List.exists_cons_of_ne_nil (hP w hw)
        simp only [List.cons_append, List.cons.injEq] at h
        obtain ⟨rfl, rfl⟩ := h
        exact ⟨ys, b, rfl, hb, hw⟩
      · rintro ⟨x, b, rfl, hb, hw⟩
        exact ⟨c :: x, b, rfl, hb, hw⟩
    rw [hcons _ (by intro w hw; rcases hw with h | h | h <;> exact h.1)]
    by_cases h1 : toLower c = 110
    · rw [if_pos h1]
      simp only [Bool.not_eq_false']
      rw [skipMatch_blank_iff [111] (by unfold Letters; decide)]
      constructor
      · rintro ⟨x, b, h, hb, hx⟩
        exact ⟨x, b, h, hb, Or.inl (abbr_cons_iff.mpr ⟨h1, hx⟩)⟩
      · rintro ⟨x, b, h, hb, hx | hx | hx⟩
        · exact ⟨x, b, h, hb, (abbr_cons_iff.mp hx).2⟩
        · have := (abbr_cons_iff.mp hx).1; rw [h1] at this; exact absurd this (by decide)
        · have := hx.2 c (by simp); subst this; exact absurd h1 (by decide)
    · rw [if_neg h1]
      by_cases h2 : toLower c = 102
      · rw [if_pos h2]
        simp only [Bool.not_eq_false']
        rw [skipMatch_blank_iff [97, 108, 115, 101] (by unfold Letters; decide)]
        constructor
        · rintro ⟨x, b, h, hb, hx⟩
          exact ⟨x, b, h, hb, Or.inr (Or.inl (abbr_cons_iff.mpr ⟨h2, hx⟩))⟩
        · rintro ⟨x, b, h, hb, hx | hx | hx⟩
          · exact absurd (abbr_cons_iff.mp hx).1 h1
          · exact ⟨x, b, h, hb, (abbr_cons_iff.mp hx).2⟩
          · have := hx.2 c (by simp); subst this; exact absurd h2 (by decide)
      · rw [if_neg h2]
        by_cases h3 : c = 48
        · rw [if_pos h3]
          simp only [Bool.not_eq_false']
          rw [zeros_blank_iff]
          constructor
          · rintro ⟨x, b, h, hb, hx⟩
            exact ⟨x, b, h, hb, Or.inr (Or.inr ⟨by simp, by simpa [h3] using hx⟩)⟩
          · rintro ⟨x, b, h, hb, hx | hx | hx⟩
            · exact absurd (abbr_cons_iff.mp hx).1 h1
            · exact absurd (abbr_cons_iff.mp hx).1 h2
            · exact ⟨x, b, h, hb, fun y hy => hx.2 y (by simp [hy])⟩
        · rw [if_neg h3]
          simp only [Bool.true_eq_false, false_iff]
          rintro ⟨x, b, h, hb, hx | hx | hx⟩
          · exact h1 (abbr_cons_iff.mp hx).1
          · exact h2 (abbr_cons_iff.mp hx).1
          · exact h3 (hx.2 c (by simp))

/-- " FaL ", "000\n", "No" read as false; "nope", "0x0", "" read as true. -/
example : parseBool [32, 70, 97, 76, 32] = false ∧ parseBool [48, 48, 48, 10] = false ∧
    parseBool [78, 111] = false ∧ parseBool [110, 111, 112, 101] = true ∧
    parseBool [48, 120, 48] = true ∧ parseBool [] = true := by decide

example : ReadsFalse [32, 70, 97, 76, 32] := (parseBool_false_iff _).mp (by decide)

end Verif.ParseBool
