import Verif.Guess.Model
/-!
# C55 Guessing the type of a scalar
-/

namespace Verif.Guess
open Verif JsonDrv

/-! ## Specification -/

/-- Blanks only. -/
def Blank (s : Bytes) : Prop := ∀ c ∈ s, isSpace c = true

/-- At least one decimal digit and nothing else. -/
def Digits (s : Bytes) : Prop := s ≠ [] ∧ ∀ c ∈ s, isDigit c = true

/-- "-" -/
abbrev minus : Bytes := [45]
/-- "+" -/
abbrev plus : Bytes := [43]
/-- "." -/
abbrev point : Bytes := [46]
/-- "e" -/
abbrev smallE : Bytes := [101]
/-- "E" -/
abbrev bigE : Bytes := [69]
/-- "0o" -/
abbrev octMark : Bytes := [48, 111]
/-- "0x" -/
abbrev hexMark : Bytes := [48, 120]

/-- Nothing, "-" or "+". -/
def Sign (s : Bytes) : Prop := s = [] ∨ s = minus ∨ s = plus

/-- A decimal integer. -/
def Integer (t : Bytes) : Prop := ∃ sg ds, t = sg ++ ds ∧ Sign sg ∧ Digits ds

/-- "0o" and octal digits. -/
def Octal (t : Bytes) : Prop := ∃ ds, t = octMark ++ ds ∧ ds ≠ [] ∧ ∀ c ∈ ds, 48 ≤ c ∧ c ≤ 55

/-- A hexadecimal digit. -/
def HexDigit (c : UInt8) : Prop := (48 ≤ c ∧ c ≤ 57) ∨ (65 ≤ c ∧ c ≤ 70) ∨ (97 ≤ c ∧ c ≤ 102)

/-- "0x" and hexadecimal digits. -/
def Hexadecimal (t : Bytes) : Prop := ∃ ds, t = hexMark ++ ds ∧ ds ≠ [] ∧ ∀ c ∈ ds, HexDigit c

/-- Digits before or after a point, or without point. -/
def Mantissa (m : Bytes) : Prop :=
  Digits m ∨ (∃ f, m = point ++ f ∧ Digits f) ∨ (∃ i f, m = i ++ point ++ f ∧ Digits i ∧ ∀ c ∈ f, isDigit c = true)

/-- Nothing, or "e" or "E" and a decimal integer. -/
def Exponent (x : Bytes) : Prop := x = [] ∨ ∃ e i, x = e ++ i ∧ (e = smallE ∨ e = bigE) ∧ Integer i

/-- A decimal number with optional fraction and exponent. -/
def Number (t : Bytes) : Prop := ∃ sg m x, t = sg ++ m ++ x ∧ Sign sg ∧ Mantissa m ∧ Exponent x

/-- null Null NULL ~ -/
def nullWords : List Bytes := [([110, 117, 108, 108] : Bytes), ([78, 117, 108, 108] : Bytes), ([78, 85, 76, 76] : Bytes), ([126] : Bytes)]
/-- true True TRUE -/
def trueWords : List Bytes := [([116, 114, 117, 101] : Bytes), ([84, 114, 117, 101] : Bytes), ([84, 82, 85, 69] : Bytes)]
/-- false False FALSE -/
def falseWords : List Bytes := [([102, 97, 108, 115, 101] : Bytes), ([70, 97, 108, 115, 101] : Bytes), ([70, 65, 76, 83, 69] : Bytes)]
/-- .inf -.inf +.inf .Inf .INF -/
def infWords : List Bytes := [([46, 105, 110, 102] : Bytes), ([45, 46, 105, 110, 102] : Bytes), ([43, 46, 105, 110, 102] : Bytes), ([46, 73, 110, 102] : Bytes), ([46, 73, 78, 70] : Bytes)]
/-- .nan .Nan .NAN -/
def nanWords : List Bytes := [([46, 110, 97, 110] : Bytes), ([46, 78, 97, 110] : Bytes), ([46, 78, 65, 78] : Bytes)]

/-- `t` is the text of something other than a string. -/
def LooksScalar (t : Bytes) : Prop :=
  t ∈ nullWords ∨ t ∈ trueWords ∨ t ∈ falseWords ∨ Integer t ∨ Octal t ∨ Hexadecimal t ∨ Number t ∨ t ∈ infWords ∨ t ∈ nanWords

/-- `s` is `t` with blanks around it. -/
def Surrounds (s t : Bytes) : Prop := ∃ a b, s = a ++ t ++ b ∧ Blank a ∧ Blank b

/-! ## Trimming -/

theorem dropWhile_blank {a : Bytes} (ha : Blank a) (r : Bytes) : (a ++ r).dropWhile isSpace = r.dropWhile isSpace := by
  induction a with
  | nil => rfl
  | cons c a ih =>
    have h1 := ha c (by simp)
    simp only [List.cons_append, List.dropWhile, h1]
    exact ih (fun d hd => ha d (by simp [hd]))

theorem dropWhile_of_head {r : Bytes} (h : ∀ c, r.head? = some c → isSpace c = false) : r.dropWhile isSpace = r := by
  cases r with
  | nil => rfl
  | cons c r => simp [List.dropWhile, h c rfl]

theorem blank_reverse {a : Bytes} (h : Blank a) : Blank a.reverse := fun c hc => h c (by simpa using hc)

/-- A text without blanks. -/
def NoBlank (t : Bytes) : Prop := ∀ c ∈ t, isSpace c = false

theorem trim_surrounds {s t : Bytes} (h : Surrounds s t) (ht : NoBlank t) : trim s = t := by
  obtain ⟨a, b, rfl, ha, hb⟩ := h
  unfold trim
  cases ht0 : t with
  | nil =>
    have : ((a ++ [] ++ b).dropWhile isSpace) = [] := by
      rw [List.append_assoc, dropWhile_blank ha]
      simpa using dropWhile_blank hb []
    rw [this]; rfl
  | cons c r =>
    rw [List.append_assoc, dropWhile_blank ha]
    have h1 : ((c :: r) ++ b).dropWhile isSpace = (c :: r) ++ b :=
      dropWhile_of_head (fun d hd => by
        simp at hd; subst hd; exact ht c (by rw [ht0]; simp))
    rw [h1, List.reverse_append, dropWhile_blank (blank_reverse hb)]
    have h2 : (c :: r).reverse.dropWhile isSpace = (c :: r).reverse := by
      apply dropWhile_of_head
      intro d hd
      have : d ∈ (c :: r).reverse := List.mem_of_mem_head? hd
      exact ht d (by rw [ht0]; exact List.mem_reverse.1 this)
    rw [h2, List.reverse_reverse]

theorem split_dropWhile (s : Bytes) : ∃ a, s = a ++ s.dropWhile isSpace ∧ Blank a := by
  refine ⟨s.takeWhile isSpace, (List.takeWhile_append_dropWhile).symm, fun c hc => ?_⟩
  induction s with
  | nil => cases hc
  | cons d s ih =>
    simp only [List.takeWhile] at hc
    split at hc
    · rename_i h
      rcases List.mem_cons.1 hc with rfl | hc
      · exact h
      · exact ih hc
    · cases hc

theorem surrounds_trim (s : Bytes) : Surrounds s (trim s) := by
  obtain ⟨a, h1, ha⟩ := split_dropWhile s
  obtain ⟨b, h2, hb⟩ := split_dropWhile (s.dropWhile isSpace).reverse
  refine ⟨a, b.reverse, ?_, ha, blank_reverse hb⟩
  have h3 := congrArg List.reverse h2
  rw [List.reverse_reverse, List.reverse_append] at h3
  unfold trim
  rw [List.append_assoc, ← h3]
  exact h1

/-! ## The forms -/

theorem digits_iff (t : Bytes) : digits t = true ↔ Digits t := by
  unfold digits Digits
  cases t <;> simp [List.all_eq_true]

theorem digit_not_sign {c : UInt8} (h : isDigit c = true) : c ≠ 45 ∧ c ≠ 43 := by
  constructor <;> rintro rfl <;> cases h

theorem sign_append {sg r : Bytes} (h : Sign sg) (hr : ∀ c, r.head? = some c → c ≠ 45 ∧ c ≠ 43) :
    (sign (sg ++ r)).2 = r ∧ (sign (sg ++ r)).1 = decide (sg = minus) := by
  rcases h with rfl | rfl | rfl
  · cases r with
    | nil => exact ⟨rfl, rfl⟩
    | cons c r =>
      obtain ⟨h1, h2⟩ := hr c rfl
      simp [sign, Ext.sign, h1, h2]
  · exact ⟨rfl, rfl⟩
  · exact ⟨rfl, rfl⟩

theorem sign_split (t : Bytes) : ∃ sg, t = sg ++ (sign t).2 ∧ Sign sg := by
  cases t with
  | nil => exact ⟨[], rfl, .inl rfl⟩
  | cons c r =>
    by_cases h1 : c = 45
    · subst h1; exact ⟨minus, rfl, .inr (.inl rfl)⟩
    · by_cases h2 : c = 43
      · subst h2; exact ⟨plus, rfl, .inr (.inr rfl)⟩
      · exact ⟨[], by simp [sign, Ext.sign, h1, h2], .inl rfl⟩

theorem digits_head {ds : Bytes} (h : ∀ c ∈ ds, isDigit c = true) (c : UInt8) (hc : ds.head? = some c) : c ≠ 45 ∧ c ≠ 43 :=
  digit_not_sign (h c (List.mem_of_mem_head? hc))

theorem integer_iff (t : Bytes) : digits (sign t).2 = true ↔ Integer t := by
  rw [digits_iff]
  constructor
  · intro h
    obtain ⟨sg, h1, h2⟩ := sign_split t
    exact ⟨sg, _, h1, h2, h⟩
  · rintro ⟨sg, ds, rfl, h1, h2⟩
    rw [(sign_append h1 (digits_head h2.2)).1]
    exact h2

theorem exp_iff (x : Bytes) : isExp x = true ↔ Exponent x := by
  unfold isExp Exponent
  cases x with
  | nil => simp
  | cons c r =>
    simp only [Bool.and_eq_true, Bool.or_eq_true, beq_iff_eq, reduceCtorEq, false_or]
    rw [integer_iff]
    constructor
    · rintro ⟨h1 | h1, h2⟩ <;> subst h1
      · exact ⟨smallE, r, rfl, .inl rfl, h2⟩
      · exact ⟨bigE, r, rfl, .inr rfl, h2⟩
    · rintro ⟨e, i, h1, h2 | h2, h3⟩ <;> subst h2 <;> cases h1
      · exact ⟨.inl rfl, h3⟩
      · exact ⟨.inr rfl, h3⟩

theorem spanDigits_spec (s : Bytes) : s = (spanDigits s).1 ++ (spanDigits s).2 ∧ (∀ c ∈ (spanDigits s).1, isDigit c = true) ∧
    ∀ c, (spanDigits s).2.head? = some c → isDigit c = false := by
  induction s with
  | nil => exact ⟨rfl, by simp [spanDigits], by simp [spanDigits]⟩
  | cons b bs ih =>
    unfold spanDigits
    by_cases h : isDigit b
    · rw [if_pos h]
      refine ⟨by simp only [List.cons_append]; rw [← ih.1], ?_, ih.2.2⟩
      intro c hc
      rcases List.mem_cons.1 hc with rfl | hc
      · exact h
      · exact ih.2.1 c hc
    · rw [if_neg h]
      refine ⟨rfl, by simp, ?_⟩
      intro c hc
      simp at hc; subst hc; simpa using h

theorem exp_head {x : Bytes} (h : Exponent x) (c : UInt8) (hc : x.head? = some c) : c = 101 ∨ c = 69 := by
  rcases h with rfl | ⟨e, i, rfl, rfl | rfl, _⟩
  · cases hc
  · left; simpa using hc.symm
  · right; simpa using hc.symm

theorem exp_head_digit {x : Bytes} (h : Exponent x) (c : UInt8) (hc : x.head? = some c) : isDigit c = false := by
  rcases exp_head h c hc with rfl | rfl <;> rfl

theorem number_iff (t : Bytes) : isFloat t = true ↔ Number t := by
  unfold isFloat
  constructor
  · intro h
    obtain ⟨sg, h1, h2⟩ := sign_split t
    obtain ⟨h3, h4, h5⟩ := spanDigits_spec (sign t).2
    generalize hd : spanDigits (sign t).2 = d at h h3 h4 h5
    obtain ⟨d1, d2⟩ := d
    dsimp only at h h3 h4 h5
    cases d2 with
    | nil =>
      refine ⟨sg, d1, [], by rw [h1, h3, List.append_assoc], h2, .inl ⟨by simpa using h, h4⟩, .inl rfl⟩
    | cons c r =>
      dsimp only at h
      by_cases hc : c = 46
      · rw [if_pos hc] at h
        subst hc
        obtain ⟨h6, h7, h8⟩ := spanDigits_spec r
        simp only [Bool.and_eq_true, Bool.or_eq_true, Bool.not_eq_true', List.isEmpty_eq_false_iff] at h
        obtain ⟨h9, h10⟩ := h
        rw [exp_iff] at h10
        by_cases hd1 : d1 = []
        · refine ⟨sg, point ++ (spanDigits r).1, (spanDigits r).2, ?_, h2, .inr (.inl ⟨_, rfl, ?_, h7⟩), h10⟩
          · rw [h1, h3, hd1]
            show sg ++ 46 :: r = _
            rw [List.append_assoc, List.append_assoc, ← h6]; rfl
          · rcases h9 with h9 | h9
            · exact absurd hd1 h9
            · exact h9
        · refine ⟨sg, d1 ++ point ++ (spanDigits r).1, (spanDigits r).2, ?_, h2, .inr (.inr ⟨d1, _, rfl, ⟨hd1, h4⟩, h7⟩), h10⟩
          rw [h1, h3]
          simp only [List.append_assoc]
          rw [← h6]; rfl
      · rw [if_neg hc] at h
        simp only [Bool.and_eq_true, Bool.not_eq_true', List.isEmpty_eq_false_iff] at h
        exact ⟨sg, d1, c :: r, by rw [h1, h3, List.append_assoc], h2, .inl ⟨h.1, h4⟩, (exp_iff _).1 h.2⟩
  · rintro ⟨sg, m, x, rfl, h1, h2, h3⟩
    have hx := exp_head_digit h3
    rcases h2 with h2 | ⟨f, rfl, h2⟩ | ⟨i, f, rfl, h2, h4⟩
    · have hs := (sign_append (r := m ++ x) h1 (fun c hc => by
        cases m with
        | nil => exact absurd rfl h2.1
        | cons d m => simp at hc; subst hc; exact digit_not_sign (h2.2 d (by simp)))).1
      rw [List.append_assoc, hs, spanDigits_append h2.2 x hx]
      dsimp only
      have hne : m.isEmpty = false := by simpa using h2.1
      cases x with
      | nil => simp [hne]
      | cons c r =>
        have : c ≠ 46 := by rcases exp_head h3 c rfl with rfl | rfl <;> decide
        simp only [this, if_false, hne, Bool.not_false, Bool.true_and]
        exact (exp_iff _).2 h3
    · have hs := (sign_append (r := point ++ f ++ x) h1 (fun c hc => by
        have : c = 46 := by simpa using hc.symm
        subst this; decide)).1
      rw [List.append_assoc, hs, List.append_assoc]
      have : spanDigits (point ++ (f ++ x)) = ([], 46 :: (f ++ x)) := rfl
      rw [this]
      dsimp only
      rw [if_pos rfl, spanDigits_append h2.2 x hx]
      have hne : f.isEmpty = false := by simpa using h2.1
      simp only [hne, Bool.not_false, Bool.or_true, Bool.true_and]
      exact (exp_iff _).2 h3
    · have hs := (sign_append (r := i ++ point ++ f ++ x) h1 (fun c hc => by
        cases i with
        | nil => exact absurd rfl h2.1
        | cons d m => simp at hc; subst hc; exact digit_not_sign (h2.2 d (by simp)))).1
      rw [List.append_assoc, hs]
      have e : i ++ point ++ f ++ x = i ++ (46 :: (f ++ x)) := by simp
      rw [e, spanDigits_append h2.2 _ (by intro c hc; simp at hc; subst hc; rfl)]
      dsimp only
      rw [if_pos rfl, spanDigits_append h4 x hx]
      have hne : i.isEmpty = false := by simpa using h2.1
      simp only [hne, Bool.not_false, Bool.true_or, Bool.true_and]
      exact (exp_iff _).2 h3

theorem octal_iff (t : Bytes) (ds : Bytes) : octal t = some ds ↔ t = octMark ++ ds ∧ ds ≠ [] ∧ ∀ c ∈ ds, 48 ≤ c ∧ c ≤ 55 := by
  have hw : octMark = [48, 111] := rfl
  match t with
  | [] => simp [octal, hw]
  | [_] => simp [octal, hw]
  | a :: b :: r =>
    simp only [octal, hw]
    by_cases h : a = 48 ∧ b = 111 ∧ r ≠ [] ∧ r.all isOct
    · rw [if_pos h]
      obtain ⟨rfl, rfl, h1, h2⟩ := h
      simp only [Option.some.injEq, List.cons_append, List.nil_append, List.cons.injEq, true_and]
      rw [List.all_eq_true] at h2
      constructor
      · rintro rfl
        exact ⟨rfl, h1, fun c hc => by simpa [isOct] using h2 c hc⟩
      · exact fun h => h.1
    · rw [if_neg h]
      simp only [reduceCtorEq, false_iff]
      rintro ⟨h1, h2, h3⟩
      simp only [List.cons_append, List.nil_append, List.cons.injEq] at h1
      obtain ⟨rfl, rfl, rfl⟩ := h1
      exact h ⟨rfl, rfl, h2, List.all_eq_true.2 fun c hc => by simpa [isOct] using h3 c hc⟩

theorem hexVal_iff (c : UInt8) : (hexVal c).isSome = true ↔ HexDigit c := by
  unfold hexVal HexDigit
  split
  · rename_i h; simp [h]
  · split
    · rename_i h; simp [h]
    · split
      · rename_i h; simp [h]
      · rename_i h1 h2 h3; simp [h1, h2, h3]

theorem hex_iff (t : Bytes) (ds : Bytes) : hex t = some ds ↔ t = hexMark ++ ds ∧ ds ≠ [] ∧ ∀ c ∈ ds, HexDigit c := by
  have hw : hexMark = [48, 120] := rfl
  match t with
  | [] => simp [hex, hw]
  | [_] => simp [hex, hw]
  | a :: b :: r =>
    simp only [hex, hw]
    by_cases h : a = 48 ∧ b = 120 ∧ r ≠ [] ∧ r.all (fun c => (hexVal c).isSome)
    · rw [if_pos h]
      obtain ⟨rfl, rfl, h1, h2⟩ := h
      simp only [Option.some.injEq, List.cons_append, List.nil_append, List.cons.injEq, true_and]
      rw [List.all_eq_true] at h2
      constructor
      · rintro rfl
        exact ⟨rfl, h1, fun c hc => (hexVal_iff c).1 (h2 c hc)⟩
      · exact fun h => h.1
    · rw [if_neg h]
      simp only [reduceCtorEq, false_iff]
      rintro ⟨h1, h2, h3⟩
      simp only [List.cons_append, List.nil_append, List.cons.injEq] at h1
      obtain ⟨rfl, rfl, rfl⟩ := h1
      exact h ⟨rfl, rfl, h2, List.all_eq_true.2 fun c hc => (hexVal_iff c).2 (h3 c hc)⟩

/-! ## No form contains a blank -/

theorem digit_noBlank {c : UInt8} (h : isDigit c = true) : isSpace c = false := by
  simp only [isDigit, Bool.and_eq_true, decide_eq_true_eq, UInt8.le_iff_toNat_le] at h
  have h1 : (48 : UInt8).toNat = 48 := rfl
  have h2 : (57 : UInt8).toNat = 57 := rfl
  have h3 : (9 : UInt8).toNat = 9 := rfl
  have h4 : (13 : UInt8).toNat = 13 := rfl
  simp only [isSpace, Bool.or_eq_false_iff, beq_eq_false_iff_ne, Bool.and_eq_false_iff, decide_eq_false_iff_not,
    UInt8.le_iff_toNat_le]
  refine ⟨?_, .inr (by omega)⟩
  rintro rfl
  have : (32 : UInt8).toNat = 32 := rfl
  omega

theorem Digits.noBlank {t : Bytes} (h : ∀ c ∈ t, isDigit c = true) : NoBlank t := fun c hc => digit_noBlank (h c hc)

theorem NoBlank.append {a b : Bytes} (ha : NoBlank a) (hb : NoBlank b) : NoBlank (a ++ b) := by
  intro c hc
  rcases List.mem_append.1 hc with h | h
  · exact ha c h
  · exact hb c h

theorem Sign.noBlank {t : Bytes} (h : Sign t) : NoBlank t := by
  rcases h with rfl | rfl | rfl <;> (unfold NoBlank; decide)

theorem Integer.noBlank {t : Bytes} (h : Integer t) : NoBlank t := by
  obtain ⟨sg, ds, rfl, h1, h2⟩ := h
  exact h1.noBlank.append (Digits.noBlank h2.2)

theorem Octal.noBlank {t : Bytes} (h : Octal t) : NoBlank t := by
  obtain ⟨ds, rfl, _, h2⟩ := h
  refine NoBlank.append (by unfold NoBlank; decide) fun c hc => digit_noBlank ?_
  have := h2 c hc
  simp only [isDigit, Bool.and_eq_true, decide_eq_true_eq]
  exact ⟨this.1, UInt8.le_trans this.2 (by decide)⟩

theorem HexDigit.noBlank {c : UInt8} (h : HexDigit c) : isSpace c = false := by
  rcases h with h | h | h
  · exact digit_noBlank (by simpa [isDigit] using h)
  all_goals
    simp only [UInt8.le_iff_toNat_le] at h
    have h1 : (65 : UInt8).toNat = 65 := rfl
    have h2 : (97 : UInt8).toNat = 97 := rfl
    have h3 : (9 : UInt8).toNat = 9 := rfl
    have h4 : (13 : UInt8).toNat = 13 := rfl
    simp only [isSpace, Bool.or_eq_false_iff, beq_eq_false_iff_ne, Bool.and_eq_false_iff, decide_eq_false_iff_not,
      UInt8.le_iff_toNat_le]
    refine ⟨?_, .inr (by omega)⟩
    rintro rfl
    have : (32 : UInt8).toNat = 32 := rfl
    omega

theorem Hexadecimal.noBlank {t : Bytes} (h : Hexadecimal t) : NoBlank t := by
  obtain ⟨ds, rfl, _, h2⟩ := h
  exact NoBlank.append (by unfold NoBlank; decide) fun c hc => (h2 c hc).noBlank

theorem Number.noBlank {t : Bytes} (h : Number t) : NoBlank t := by
  obtain ⟨sg, m, x, rfl, h1, h2, h3⟩ := h
  refine (h1.noBlank.append ?_).append ?_
  · rcases h2 with h2 | ⟨f, rfl, h2⟩ | ⟨i, f, rfl, h2, h4⟩
    · exact Digits.noBlank h2.2
    · exact NoBlank.append (by unfold NoBlank; decide) (Digits.noBlank h2.2)
    · exact ((Digits.noBlank h2.2).append (by unfold NoBlank; decide)).append (Digits.noBlank h4)
  · rcases h3 with rfl | ⟨e, i, rfl, h3, h4⟩
    · exact fun c hc => by cases hc
    · refine NoBlank.append ?_ h4.noBlank
      rcases h3 with rfl | rfl <;> (unfold NoBlank; decide)

theorem words_noBlank : ∀ l ∈ [nullWords, trueWords, falseWords, infWords, nanWords], ∀ t ∈ l, ∀ c ∈ t, isSpace c = false := by decide

theorem LooksScalar.noBlank {t : Bytes} (h : LooksScalar t) : NoBlank t := by
  have hw := words_noBlank
  simp only [List.mem_cons, List.not_mem_nil, or_false, forall_eq_or_imp, forall_eq] at hw
  rcases h with h | h | h | h | h | h | h | h | h
  · exact hw.1 t h
  · exact hw.2.1 t h
  · exact hw.2.2.1 t h
  · exact h.noBlank
  · exact h.noBlank
  · exact h.noBlank
  · exact h.noBlank
  · exact hw.2.2.2.1 t h
  · exact hw.2.2.2.2 t h

theorem takeWhile_noNul {s : Bytes} (h : 0 ∉ s) : s.takeWhile (· ≠ 0) = s := by
  induction s with
  | nil => rfl
  | cons c s ih =>
    simp only [List.mem_cons, not_or] at h
    have : decide (c ≠ 0) = true := by simpa using fun e => h.1 e.symm
    simp only [List.takeWhile, this]
    rw [ih h.2]

/-! ## The result for each form -/

/-- The forms in the order they are tried. -/
theorem guess_of_trim (fo : FloatOps) (stale : Bool) {s t : Bytes} (hs : 0 ∉ s) (ht : trim s = t) :
    guess fo stale s =
      if t ∈ nullWords then .null
      else if t ∈ trueWords then .bool true
      else if t ∈ falseWords then .bool false
      else if digits (sign t).2 then int10 stale t
      else match octal t with
        | some ds => .uint (sat64 (octVal 0 ds))
        | none => match hex t with
          | some ds => .uint (sat64 (hexadecVal 0 ds))
          | none =>
            if isFloat t then .flt (fo.strtod (s.dropWhile isSpace))
            else if t ∈ infWords then .flt (if t.head? = some 45 then 0xFFF0000000000000 else 0x7FF0000000000000)
            else if t ∈ nanWords then .flt 0x7FF8000000000000
            else .str s := by
  unfold guess
  rw [takeWhile_noNul hs]
  dsimp only
  rw [ht]
  rfl

theorem nullWords_other : ∀ t ∈ nullWords, t ∉ trueWords ∧ t ∉ falseWords := by decide

theorem int10_not_str (stale : Bool) (t : Bytes) : (∀ u, int10 stale t ≠ .str u) ∧ int10 stale t ≠ .null ∧ ∀ b, int10 stale t ≠ .bool b := by
  have : (∃ n, int10 stale t = .uint n) ∨ ∃ n, int10 stale t = .int n := by
    unfold int10
    dsimp only
    generalize (stale || _) = q
    by_cases h : strtoll (sign t).1 (decVal 0 (sign t).2) = 2 ^ 63 - 1 ∧ q = true
    · exact .inl ⟨_, if_pos h⟩
    · exact .inr ⟨_, if_neg h⟩
  rcases this with ⟨n, h⟩ | ⟨n, h⟩ <;> rw [h] <;> exact ⟨nofun, nofun, nofun⟩

/-- C55.  A text that is not the text of another scalar, with or without blanks around it, is a string, and comes
back unchanged; every other text is not a string. -/
theorem guess_string_iff (fo : FloatOps) (stale : Bool) {s : Bytes} (hs : 0 ∉ s) (u : Bytes) :
    guess fo stale s = .str u ↔ u = s ∧ ¬ ∃ t, Surrounds s t ∧ LooksScalar t := by
  rw [guess_of_trim fo stale hs rfl]
  have key : (∃ t, Surrounds s t ∧ LooksScalar t) ↔ LooksScalar (trim s) := by
    constructor
    · rintro ⟨t, h1, h2⟩
      rw [trim_surrounds h1 h2.noBlank]; exact h2
    · exact fun h => ⟨_, surrounds_trim s, h⟩
  rw [key]
  unfold LooksScalar
  by_cases h1 : trim s ∈ nullWords
  · simp [h1]
  by_cases h2 : trim s ∈ trueWords
  · simp [h1, h2]
  by_cases h3 : trim s ∈ falseWords
  · simp [h1, h2, h3]
  by_cases h4 : Integer (trim s)
  · have := (integer_iff _).2 h4
    simp only [h1, h2, h3, this, if_true, if_false, h4, true_or, or_true, not_true, and_false, iff_false]
    exact (int10_not_str stale _).1 u
  have h4' : ¬ digits (sign (trim s)).2 = true := fun h => h4 ((integer_iff _).1 h)
  simp only [h1, h2, h3, h4, h4', if_false, false_or]
  cases h5 : octal (trim s) with
  | some ds =>
    have h6 : Octal (trim s) := ⟨ds, (octal_iff _ _).1 h5⟩
    simp [h6]
  | none =>
    have h6 : ¬ Octal (trim s) := by
      rintro ⟨ds, h⟩
      rw [(octal_iff _ _).2 h] at h5; cases h5
    cases h7 : hex (trim s) with
    | some ds =>
      have h8 : Hexadecimal (trim s) := ⟨ds, (hex_iff _ _).1 h7⟩
      simp [h8]
    | none =>
      have h8 : ¬ Hexadecimal (trim s) := by
        rintro ⟨ds, h⟩
        rw [(hex_iff _ _).2 h] at h7; cases h7
      simp only [h6, h8, false_or]
      by_cases h9 : Number (trim s)
      · simp [h9, (number_iff _).2 h9]
      · have h9' : ¬ isFloat (trim s) = true := fun h => h9 ((number_iff _).1 h)
        simp only [h9, h9', if_false, false_or, Bool.false_eq_true]
        by_cases h10 : trim s ∈ infWords
        · simp [h10]
        · by_cases h11 : trim s ∈ nanWords
          · simp [h11, h10]
          · simp [h10, h11, eq_comm]

theorem int_not_word {t : Bytes} (h : Integer t) : t ∉ nullWords ∧ t ∉ trueWords ∧ t ∉ falseWords := by
  have key : ∀ u ∈ nullWords ++ trueWords ++ falseWords, digits (sign u).2 = false := by decide
  have h1 := (integer_iff t).2 h
  refine ⟨fun h2 => ?_, fun h2 => ?_, fun h2 => ?_⟩ <;>
    (have := key t (by simp [h2]); rw [h1] at this; cases this)

theorem octal_not_word {t : Bytes} (h : Octal t) :
    t ∉ nullWords ∧ t ∉ trueWords ∧ t ∉ falseWords ∧ digits (sign t).2 = false := by
  obtain ⟨ds, rfl, _⟩ := h
  have key : ∀ u ∈ nullWords ++ trueWords ++ falseWords, u.head? ≠ some 48 := by decide
  refine ⟨fun h2 => ?_, fun h2 => ?_, fun h2 => ?_, ?_⟩
  · exact key (octMark ++ ds) (by simp only [List.mem_append, h2, true_or, or_true]) rfl
  · exact key (octMark ++ ds) (by simp only [List.mem_append, h2, true_or, or_true]) rfl
  · exact key (octMark ++ ds) (by simp only [List.mem_append, h2, true_or, or_true]) rfl
  · simp [octMark, sign, Ext.sign, digits, isDigit]

theorem hex_not_word {t : Bytes} (h : Hexadecimal t) :
    t ∉ nullWords ∧ t ∉ trueWords ∧ t ∉ falseWords ∧ digits (sign t).2 = false ∧ octal t = none := by
  obtain ⟨ds, rfl, _⟩ := h
  have key : ∀ u ∈ nullWords ++ trueWords ++ falseWords, u.head? ≠ some 48 := by decide
  refine ⟨fun h2 => ?_, fun h2 => ?_, fun h2 => ?_, ?_, ?_⟩
  · exact key (hexMark ++ ds) (by simp only [List.mem_append, h2, true_or, or_true]) rfl
  · exact key (hexMark ++ ds) (by simp only [List.mem_append, h2, true_or, or_true]) rfl
  · exact key (hexMark ++ ds) (by simp only [List.mem_append, h2, true_or, or_true]) rfl
  · simp [hexMark, sign, Ext.sign, digits, isDigit]
  · simp [hexMark, octal]

/-- C55.  Null and the truth values are exactly their words, with or without blanks around them. -/
theorem guess_null_iff (fo : FloatOps) (stale : Bool) {s : Bytes} (hs : 0 ∉ s) :
    guess fo stale s = .null ↔ ∃ t ∈ nullWords, Surrounds s t := by
  have key : (∃ t ∈ nullWords, Surrounds s t) ↔ trim s ∈ nullWords := by
    constructor
    · rintro ⟨t, h1, h2⟩
      rw [trim_surrounds h2 (LooksScalar.noBlank (.inl h1))]; exact h1
    · exact fun h => ⟨_, h, surrounds_trim s⟩
  rw [key, guess_of_trim fo stale hs rfl]
  by_cases h1 : trim s ∈ nullWords
  · simp [h1]
  simp only [h1, if_false, iff_false]
  split
  · nofun
  · split
    · nofun
    · split
      · exact (int10_not_str _ _).2.1
      · split
        · nofun
        · split
          · nofun
          · split
            · nofun
            · split
              · nofun
              · split <;> nofun

theorem guess_bool_iff (fo : FloatOps) (stale : Bool) {s : Bytes} (hs : 0 ∉ s) (b : Bool) :
    guess fo stale s = .bool b ↔ ∃ t, t ∈ (if b then trueWords else falseWords) ∧ Surrounds s t := by
  have hl : ∀ t, t ∈ (if b then trueWords else falseWords) → LooksScalar t := by
    intro t ht
    cases b
    · exact .inr (.inr (.inl ht))
    · exact .inr (.inl ht)
  have key : (∃ t, t ∈ (if b then trueWords else falseWords) ∧ Surrounds s t) ↔ trim s ∈ (if b then trueWords else falseWords) := by
    constructor
    · rintro ⟨t, h1, h2⟩
      rw [trim_surrounds h2 (hl t h1).noBlank]; exact h1
    · exact fun h => ⟨_, h, surrounds_trim s⟩
  rw [key, guess_of_trim fo stale hs rfl]
  have d1 : ∀ t ∈ trueWords, t ∉ nullWords ∧ t ∉ falseWords := by decide
  have d2 : ∀ t ∈ falseWords, t ∉ nullWords ∧ t ∉ trueWords := by decide
  by_cases h2 : trim s ∈ trueWords
  · cases b <;> simp [h2, d1 _ h2]
  by_cases h3 : trim s ∈ falseWords
  · cases b <;> simp [h3, d2 _ h3]
  have h4 : trim s ∉ (if b then trueWords else falseWords) := by cases b <;> simp [h2, h3]
  simp only [h2, h3, h4, if_false, iff_false]
  split
  · nofun
  · split
    · exact (int10_not_str _ _).2.2 b
    · split
      · nofun
      · split
        · nofun
        · split
          · nofun
          · split
            · nofun
            · split <;> nofun

/-- The integer a value holds. -/
def intOf : Val → Option Int
  | .int i => some i.toInt
  | .uint u => some u.toNat
  | _ => none

/-- C55.  Decimal integers from -2^63 to 2^64 - 1 keep their value, whatever their sign, leading zeros and blanks
around them.  Missing: integers outside that range (`guess_saturates_false`). -/
theorem guess_integer_partial (fo : FloatOps) (stale : Bool) {s sg ds : Bytes} (h0 : 0 ∉ s) (hsg : Sign sg) (hds : Digits ds)
    (hs : Surrounds s (sg ++ ds)) (hr : if sg = minus then decVal 0 ds ≤ 2 ^ 63 else decVal 0 ds < 2 ^ 64) :
    intOf (guess fo stale s) = some (if sg = minus then -(decVal 0 ds : Int) else decVal 0 ds) := by
  have hint : Integer (sg ++ ds) := ⟨sg, ds, rfl, hsg, hds⟩
  have ht := trim_surrounds hs hint.noBlank
  obtain ⟨h1, h2, h3⟩ := int_not_word hint
  have h4 := (integer_iff _).2 hint
  rw [guess_of_trim fo stale h0 ht]
  simp only [h1, h2, h3, h4, if_true, if_false]
  obtain ⟨e1, e2⟩ := sign_append (r := ds) hsg (digits_head hds.2)
  unfold int10
  simp only [e1, e2]
  generalize decVal 0 ds = n at hr ⊢
  by_cases hm : sg = minus
  · simp only [hm, if_true] at hr ⊢
    have h5 : strtoll (decide True) n = -(n : Int) := by simp [strtoll, hr]
    rw [h5, if_neg (by omega)]
    simp only [intOf, Option.some.injEq]
    have hsz : Int64.size = 2 ^ 64 := rfl
    rw [Int64.toInt_ofInt, hsz, Int.bmod_eq_of_le] <;> omega
  · simp only [hm, if_false, decide_false] at hr ⊢
    by_cases h6 : n < 2 ^ 63
    · have h5 : strtoll false n = n := by simp [strtoll, h6]
      rw [h5]
      generalize (stale || _) = q
      by_cases h7 : (n : Int) = 2 ^ 63 - 1 ∧ q = true
      · rw [if_pos h7]
        simp only [intOf, Option.some.injEq, sat64]
        rw [UInt64.toNat_ofNat', Nat.min_eq_left (by omega), Nat.mod_eq_of_lt (by omega)]
      · rw [if_neg h7]
        simp only [intOf, Option.some.injEq]
        have hsz : Int64.size = 2 ^ 64 := rfl
        rw [Int64.toInt_ofInt, hsz, Int.bmod_eq_of_le] <;> omega
    · have h5 : strtoll false n = 2 ^ 63 - 1 := by simp [strtoll, h6]
      rw [h5, if_pos ⟨rfl, by simp; omega⟩]
      simp only [intOf, Option.some.injEq, sat64]
      rw [UInt64.toNat_ofNat', Nat.min_eq_left (by omega), Nat.mod_eq_of_lt (by omega)]

/-- C55.  What is printed for a 64-bit integer reads back as that integer. -/
theorem guess_printed (fo : FloatOps) (stale : Bool) :
    (∀ n < 2 ^ 64, intOf (guess fo stale (natDec n)) = some (n : Int)) ∧
    (∀ n ≤ 2 ^ 63, intOf (guess fo stale (45 :: natDec n)) = some (-(n : Int))) := by
  have hd : ∀ n, Digits (natDec n) := fun n => ⟨natDec_ne_nil n, natDec_all_digits n⟩
  have hz : ∀ n, 0 ∉ natDec n := fun n h => by have := natDec_all_digits n 0 h; cases this
  constructor
  · intro n hn
    have := guess_integer_partial fo stale (s := natDec n) (sg := []) (ds := natDec n) (hz n) (.inl rfl) (hd n)
      ⟨[], [], by simp, nofun, nofun⟩ (by simp [decVal_natDec_acc, hn])
    simpa [decVal_natDec_acc] using this
  · intro n hn
    have := guess_integer_partial fo stale (s := 45 :: natDec n) (sg := minus) (ds := natDec n) (by
      simp [hz n]) (.inr (.inl rfl)) (hd n) ⟨[], [], by simp, nofun, nofun⟩ (by simp [decVal_natDec_acc, hn])
    simpa [decVal_natDec_acc] using this

/-- The value of digits in some base. -/
def valueIn (base : Nat) (digit : UInt8 → Nat) (ds : Bytes) : Nat := ds.foldl (fun a c => a * base + digit c) 0

/-- The value of a hexadecimal digit. -/
def hexOf (c : UInt8) : Nat := if c ≤ 57 then c.toNat - 48 else if c ≤ 70 then c.toNat - 65 + 10 else c.toNat - 97 + 10

theorem octVal_eq (ds : Bytes) (a : Nat) : octVal a ds = ds.foldl (fun a c => a * 8 + (c.toNat - 48)) a := by
  induction ds generalizing a with
  | nil => rfl
  | cons c ds ih => exact ih _

theorem hexVal_eq {c : UInt8} (h : HexDigit c) : (hexVal c).getD 0 = hexOf c := by
  unfold hexVal hexOf
  unfold HexDigit at h
  simp only [UInt8.le_iff_toNat_le, show (48 : UInt8).toNat = 48 from rfl, show (57 : UInt8).toNat = 57 from rfl,
    show (65 : UInt8).toNat = 65 from rfl, show (70 : UInt8).toNat = 70 from rfl,
    show (97 : UInt8).toNat = 97 from rfl, show (102 : UInt8).toNat = 102 from rfl] at h ⊢
  rcases h with h | h | h
  · rw [if_pos h, if_pos h.2]; rfl
  · rw [if_neg (by omega), if_pos h, if_neg (by omega), if_pos h.2]
    simp only [Option.getD_some]; omega
  · rw [if_neg (by omega), if_neg (by omega), if_pos h, if_neg (by omega), if_neg (by omega)]
    simp only [Option.getD_some]; omega

theorem hexadecVal_eq {ds : Bytes} (h : ∀ c ∈ ds, HexDigit c) (a : Nat) : hexadecVal a ds = ds.foldl (fun a c => a * 16 + hexOf c) a := by
  induction ds generalizing a with
  | nil => rfl
  | cons c ds ih =>
    simp only [hexadecVal, List.foldl_cons, hexVal_eq (h c (by simp))]
    exact ih (fun d hd => h d (by simp [hd])) _

/-- C55.  Octal and hexadecimal texts below 2^64 keep their value. -/
theorem guess_octal_partial (fo : FloatOps) (stale : Bool) {s ds : Bytes} (h0 : 0 ∉ s) (hd : ds ≠ []) (hds : ∀ c ∈ ds, 48 ≤ c ∧ c ≤ 55)
    (hs : Surrounds s (octMark ++ ds)) (hr : valueIn 8 (fun c => c.toNat - 48) ds < 2 ^ 64) :
    guess fo stale s = .uint (UInt64.ofNat (valueIn 8 (fun c => c.toNat - 48) ds)) := by
  have ho : Octal (octMark ++ ds) := ⟨ds, rfl, hd, hds⟩
  obtain ⟨h1, h2, h3, h4⟩ := octal_not_word ho
  rw [guess_of_trim fo stale h0 (trim_surrounds hs ho.noBlank)]
  have h5 := (octal_iff (octMark ++ ds) ds).2 ⟨rfl, hd, hds⟩
  simp only [h1, h2, h3, h4, h5, if_false, Bool.false_eq_true, sat64, octVal_eq]
  unfold valueIn at hr ⊢
  dsimp only at hr ⊢
  rw [Nat.min_eq_left (by omega)]

theorem guess_hex_partial (fo : FloatOps) (stale : Bool) {s ds : Bytes} (h0 : 0 ∉ s) (hd : ds ≠ []) (hds : ∀ c ∈ ds, HexDigit c)
    (hs : Surrounds s (hexMark ++ ds)) (hr : valueIn 16 hexOf ds < 2 ^ 64) :
    guess fo stale s = .uint (UInt64.ofNat (valueIn 16 hexOf ds)) := by
  have ho : Hexadecimal (hexMark ++ ds) := ⟨ds, rfl, hd, hds⟩
  obtain ⟨h1, h2, h3, h4, h6⟩ := hex_not_word ho
  rw [guess_of_trim fo stale h0 (trim_surrounds hs ho.noBlank)]
  have h5 := (hex_iff (hexMark ++ ds) ds).2 ⟨rfl, hd, hds⟩
  simp only [h1, h2, h3, h4, h5, h6, if_false, Bool.false_eq_true, sat64, hexadecVal_eq hds]
  unfold valueIn at hr ⊢
  rw [Nat.min_eq_left (by omega)]

/-- C55.  Other decimal numbers are read by the C library from where they begin. -/
theorem guess_number (fo : FloatOps) (stale : Bool) {a t b : Bytes} (h0 : 0 ∉ a ++ t ++ b) (ha : Blank a) (hb : Blank b)
    (ht : Number t) (hi : ¬ Integer t) : guess fo stale (a ++ t ++ b) = .flt (fo.strtod (t ++ b)) := by
  have hnb := ht.noBlank
  rw [guess_of_trim fo stale h0 (trim_surrounds ⟨a, b, rfl, ha, hb⟩ hnb)]
  have hf := (number_iff t).2 ht
  have key : ∀ u ∈ nullWords ++ trueWords ++ falseWords, isFloat u = false := by decide
  have h1 : t ∉ nullWords := fun h => by have := key t (by simp [h]); rw [hf] at this; cases this
  have h2 : t ∉ trueWords := fun h => by have := key t (by simp [h]); rw [hf] at this; cases this
  have h3 : t ∉ falseWords := fun h => by have := key t (by simp [h]); rw [hf] at this; cases this
  have h4 : ¬ digits (sign t).2 = true := fun h => hi ((integer_iff t).1 h)
  have hmark : ∀ c r, t = 48 :: c :: r → c ≠ 111 ∧ c ≠ 120 := by
    rintro c r rfl
    constructor
    all_goals
      rintro rfl
      simp [isFloat, sign, Ext.sign, spanDigits, isDigit, isExp] at hf
  have h5 : octal t = none := by
    cases h : octal t with
    | none => rfl
    | some ds =>
      have := ((octal_iff t ds).1 h).1
      exact absurd rfl (hmark 111 ds this).1
  have h6 : hex t = none := by
    cases h : hex t with
    | none => rfl
    | some ds =>
      have := ((hex_iff t ds).1 h).1
      exact absurd rfl (hmark 120 ds this).2
  have h7 : digits (sign t).2 = false := Bool.eq_false_iff.2 h4
  simp only [h1, h2, h3, h7, h5, h6, hf, if_true, if_false, Bool.false_eq_true]
  rw [List.append_assoc, dropWhile_blank ha, dropWhile_of_head]
  intro c hc
  cases t with
  | nil => cases hf
  | cons d t => simp at hc; subst hc; exact hnb d (by simp)

/-- C55.  The words for the infinities and for not a number. -/
theorem guess_special (fo : FloatOps) (stale : Bool) {s t : Bytes} (h0 : 0 ∉ s) (hs : Surrounds s t) :
    (t ∈ infWords → guess fo stale s = .flt (if t.head? = some 45 then 0xFFF0000000000000 else 0x7FF0000000000000)) ∧
    (t ∈ nanWords → guess fo stale s = .flt 0x7FF8000000000000) := by
  have key : ∀ u ∈ infWords ++ nanWords, u ∉ nullWords ∧ u ∉ trueWords ∧ u ∉ falseWords ∧ digits (sign u).2 = false ∧
      octal u = none ∧ hex u = none ∧ isFloat u = false := by decide
  have key2 : ∀ u ∈ nanWords, u ∉ infWords := by decide
  constructor <;> intro ht
  · obtain ⟨h1, h2, h3, h4, h5, h6, h7⟩ := key t (by simp [ht])
    rw [guess_of_trim fo stale h0 (trim_surrounds hs (LooksScalar.noBlank (by simp [LooksScalar, ht])))]
    simp [h1, h2, h3, h4, h5, h6, h7, ht]
  · obtain ⟨h1, h2, h3, h4, h5, h6, h7⟩ := key t (by simp [ht])
    rw [guess_of_trim fo stale h0 (trim_surrounds hs (LooksScalar.noBlank (by simp [LooksScalar, ht])))]
    simp [h1, h2, h3, h4, h5, h6, h7, ht, key2 t ht]

/-! ### Non-vacuity and findings -/

/-- The hypotheses are met: " -42\n" is -42, "0o17" is 15, "0xfF" is 255, "-.5e3 " is a number, "12 a" is a string. -/
example (fo : FloatOps) (stale : Bool) :
    intOf (guess fo stale [32, 45, 52, 50, 10]) = some (-42) ∧
    guess fo stale [48, 111, 49, 55] = .uint 15 ∧ guess fo stale [48, 120, 102, 70] = .uint 255 ∧
    guess fo stale [45, 46, 53, 101, 51, 32] = .flt (fo.strtod [45, 46, 53, 101, 51, 32]) ∧
    guess fo stale [49, 50, 32, 97] = .str [49, 50, 32, 97] := by
  refine ⟨?_, ?_, ?_, ?_, ?_⟩
  · exact guess_integer_partial fo stale (sg := [45]) (ds := [52, 50]) (by decide) (.inr (.inl rfl)) ⟨by decide, by decide⟩
      ⟨[32], [10], rfl, by unfold Blank; decide, by unfold Blank; decide⟩ (by decide)
  · exact guess_octal_partial fo stale (ds := [49, 55]) (by decide) (by decide) (by decide) ⟨[], [], rfl, nofun, nofun⟩ (by decide)
  · exact guess_hex_partial fo stale (ds := [102, 70]) (by decide) (by decide) (by unfold HexDigit; decide)
      ⟨[], [], rfl, nofun, nofun⟩ (by decide)
  · exact guess_number fo stale (a := []) (t := [45, 46, 53, 101, 51]) (b := [32]) (by decide) nofun (by unfold Blank; decide)
      ((number_iff _).1 (by decide)) (fun h => by have := (integer_iff _).2 h; revert this; decide)
  · refine (guess_string_iff fo stale (by decide) _).2 ⟨rfl, ?_⟩
    rintro ⟨t, h1, h2⟩
    have h3 := trim_surrounds h1 h2.noBlank
    have h4 := h2.noBlank 32 (by rw [← h3]; decide)
    revert h4; decide

/-- C55, finding: integers beyond the range silently become the nearest limit: -9223372036854775809 becomes
-2^63, and 18446744073709551616 becomes 2^64 - 1. -/
theorem guess_saturates_false (fo : FloatOps) (stale : Bool) :
    guess fo stale (45 :: natDec (2 ^ 63 + 1)) = .int (Int64.ofInt (-(2 ^ 63))) ∧
    guess fo stale (natDec (2 ^ 64)) = .uint (UInt64.ofNat (2 ^ 64 - 1)) := by
  have hd : ∀ n, Digits (natDec n) := fun n => ⟨natDec_ne_nil n, natDec_all_digits n⟩
  have hz : ∀ n, 0 ∉ natDec n := fun n h => by have := natDec_all_digits n 0 h; cases this
  have key : ∀ sg n, Sign sg → 0 ∉ sg ++ natDec n → guess fo stale (sg ++ natDec n) = int10 stale (sg ++ natDec n) := by
    intro sg n hsg h0
    have hint : Integer (sg ++ natDec n) := ⟨sg, natDec n, rfl, hsg, hd n⟩
    obtain ⟨h1, h2, h3⟩ := int_not_word hint
    have h4 := (integer_iff _).2 hint
    rw [guess_of_trim fo stale h0 (trim_surrounds ⟨[], [], by simp, nofun, nofun⟩ hint.noBlank)]
    simp only [h1, h2, h3, h4, if_true, if_false]
  constructor
  · rw [show 45 :: natDec (2 ^ 63 + 1) = minus ++ natDec (2 ^ 63 + 1) from rfl, key minus _ (.inr (.inl rfl)) (by simp [hz])]
    obtain ⟨e1, e2⟩ := sign_append (sg := minus) (r := natDec (2 ^ 63 + 1)) (.inr (.inl rfl)) (digits_head (hd _).2)
    simp only [int10, e1, e2, decVal_natDec_acc]
    rw [show strtoll (decide True) (2 ^ 63 + 1) = -(2 ^ 63) by simp [strtoll]]
    rw [if_neg (by simp)]
  · rw [show natDec (2 ^ 64) = [] ++ natDec (2 ^ 64) from rfl, key [] _ (.inl rfl) (by simp [hz])]
    obtain ⟨e1, e2⟩ := sign_append (sg := []) (r := natDec (2 ^ 64)) (.inl rfl) (digits_head (hd _).2)
    simp only [int10, e1, e2, decVal_natDec_acc]
    rw [show strtoll (decide (([] : Bytes) = minus)) (2 ^ 64) = 2 ^ 63 - 1 by simp [strtoll]]
    rw [if_pos (by simp)]
    simp [sat64]

/-- C55, finding: text after a NUL is ignored where the text before it looks like a number. -/
theorem guess_nul_false (fo : FloatOps) (stale : Bool) : guess fo stale [49, 50, 0, 97] = .int 12 := by
  cases stale <;> rfl

end Verif.Guess
