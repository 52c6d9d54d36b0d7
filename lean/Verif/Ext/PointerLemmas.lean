import Verif.Ext.Pointer
import Verif.Ext.PointerSpec
import Verif.Val.EraseProps
/-! # Lemmas about pointer texts and indices -/

namespace Verif.Ext
open Verif

theorem unescape_ne {c : UInt8} (h : c ≠ 0x7e) (r : Bytes) : unescape (c :: r) = c :: unescape r := by
  rw [unescape.eq_def]; simp [h]

theorem unescape_plain {t : Bytes} (h : (0x7e : UInt8) ∉ t) : unescape t = t := by
  induction t with
  | nil => rfl
  | cons c r ih => rw [unescape_ne (fun e => h (by simp [e])), ih fun e => h (by simp [e])]

theorem unescape_escapeToken (t : Bytes) : unescape (escapeToken t) = t := by
  induction t with
  | nil => rfl
  | cons c r ih =>
    simp only [escapeToken, List.flatMap_cons] at ih ⊢
    by_cases h1 : c = 0x7e
    · subst h1; simp [unescape, ih]
    · by_cases h2 : c = 0x2f
      · subst h2; simp [unescape, ih]
      · rw [if_neg h1, if_neg h2, List.singleton_append, unescape_ne h1, ih]

theorem cut_append {a : Bytes} (h : (0x2f : UInt8) ∉ a) (r : Bytes) :
    cut (a ++ r) = (a ++ (cut r).1, (cut r).2) := by
  induction a with
  | nil => rfl
  | cons c a ih =>
    have hc : c ≠ 0x2f := fun e => h (by simp [e])
    simp only [List.cons_append, cut, ih (fun e => h (by simp [e])), if_neg hc]

theorem cut_parts (ts : List Bytes) (h : ∀ t ∈ ts, (0x2f : UInt8) ∉ t) :
    cut (ts.flatMap fun t => 0x2f :: t) = ([], ts) := by
  induction ts with
  | nil => rfl
  | cons t ts ih =>
    have ih := ih (fun t ht => h t (by simp [ht]))
    simp only [List.flatMap_cons, List.cons_append, cut, if_true]
    rw [cut_append (h t (by simp)), ih]
    simp

theorem slash_escapeToken (t : Bytes) : (0x2f : UInt8) ∉ escapeToken t := by
  simp only [escapeToken, List.mem_flatMap, not_exists, not_and]
  intro c _
  split
  · decide
  · split
    · decide
    · rename_i h; simpa using Ne.symm h

theorem components_parts (ts : List Bytes) (h : ∀ t ∈ ts, (0x2f : UInt8) ∉ t) :
    components (ts.flatMap fun t => 0x2f :: t) = some (ts.map unescape) := by
  unfold components
  cases ts with
  | nil => rfl
  | cons t ts =>
    have := cut_parts (t :: ts) h
    simp only [List.flatMap_cons, List.cons_append] at this ⊢
    simp only [this, if_true]

theorem components_pointerText (ts : List Bytes) : components (pointerText ts) = some ts := by
  have : pointerText ts = (ts.map escapeToken).flatMap fun t => 0x2f :: t := by
    simp only [pointerText, List.flatMap_map]
  rw [this, components_parts]
  · rw [List.map_map]
    have : unescape ∘ escapeToken = id := funext unescape_escapeToken
    rw [this, List.map_id]
  · intro t ht
    obtain ⟨u, _, rfl⟩ := List.mem_map.mp ht
    exact slash_escapeToken u

theorem digit_facts {b : UInt8} (h : isDigit b = true) :
    b ≠ 0 ∧ isSpace b = false ∧ b ≠ 0x2d ∧ b ≠ 0x2b ∧ b ≠ 0x2f ∧ b ≠ 0x7e := by
  simp only [isDigit, Bool.and_eq_true, decide_eq_true_eq] at h
  obtain ⟨h1, h2⟩ := h
  have h1' : 48 ≤ b.toNat := h1
  have h2' : b.toNat ≤ 57 := h2
  have ne : ∀ c : UInt8, (c.toNat < 48 ∨ 57 < c.toNat) → b ≠ c := by
    rintro c hc rfl; omega
  refine ⟨ne _ (by decide), isSpace_of_isDigit (by simp [isDigit, h1, h2]), ne _ (by decide), ne _ (by decide),
    ne _ (by decide), ne _ (by decide)⟩

theorem natDec_cons (n : Nat) : ∃ b bs, natDec n = b :: bs ∧ isDigit b = true := by
  cases h : natDec n with
  | nil => exact absurd h (natDec_ne_nil n)
  | cons b bs => exact ⟨b, bs, rfl, natDec_all_digits n b (by simp [h])⟩

theorem natDec_ne_dash (n : Nat) : natDec n ≠ [0x2d] := by
  obtain ⟨b, bs, h, hd⟩ := natDec_cons n
  rw [h]
  intro e
  simp only [List.cons.injEq] at e
  exact (digit_facts hd).2.2.1 e.1

theorem natDec_inj {a b : Nat} (h : natDec a = natDec b) : a = b := by
  rw [← decVal_natDec_acc a, ← decVal_natDec_acc b, h]

theorem takeWhile_all {a : Bytes} {q : UInt8 → Bool} (h : ∀ c ∈ a, q c = true) : a.takeWhile q = a := by
  induction a with
  | nil => rfl
  | cons c a ih =>
    rw [List.takeWhile_cons, if_pos (h c (by simp)), ih fun c hc => h c (by simp [hc])]

theorem isIndex_natDec {n : Nat} (h : n < 2 ^ 64) : isIndex (natDec n) = some n := by
  have hd := natDec_all_digits n
  obtain ⟨b, bs, hb, hbd⟩ := natDec_cons n
  have h0 : (natDec n).takeWhile (· ≠ 0) = natDec n :=
    takeWhile_all fun c hc => by simp [(digit_facts (hd c hc)).1]
  have hs : strtoull (natDec n) = some (n, []) := by
    have e1 : (natDec n).dropWhile isSpace = natDec n := by
      rw [hb, List.dropWhile_cons, if_neg (by simp [(digit_facts hbd).2.1])]
    have e2 : sign (natDec n) = (false, natDec n) := by
      rw [hb]
      simp [sign, (digit_facts hbd).2.2.1, (digit_facts hbd).2.2.2.1]
    simp only [strtoull, e1, e2, spanDigits_all hd, decVal_natDec_acc]
    rw [if_neg (natDec_ne_nil n), signed64, if_neg (by omega)]
    simp
  simp only [isIndex, h0, hs]
  simp

/-- A proper token is read as a number only if it is that number. -/
theorem Proper.isIndex {t : Bytes} (h : Proper t) {n : Nat} (hn : isIndex t = some n) :
    n < 2 ^ 32 ∧ t = natDec n := by
  rcases h with ⟨k, hk, rfl⟩ | rfl | rfl | ⟨c, r, rfl, h1, h2, h3, h4, h5⟩
  · rw [isIndex_natDec (by omega)] at hn; cases hn; exact ⟨hk, rfl⟩
  · have : Ext.isIndex [] = none := by decide
    rw [this] at hn; cases hn
  · have : Ext.isIndex [0x2d] = none := by decide
    rw [this] at hn; cases hn
  · exfalso
    have e1 : (c :: r).takeWhile (· ≠ 0) = c :: r.takeWhile (· ≠ 0) := by
      rw [List.takeWhile_cons, if_pos (by simpa using h5)]
    have e2 : (c :: r.takeWhile (· ≠ 0)).dropWhile isSpace = c :: r.takeWhile (· ≠ 0) := by
      rw [List.dropWhile_cons, if_neg (by simp [h2])]
    have e3 : strtoull (c :: r.takeWhile (· ≠ 0)) = none := by
      simp only [strtoull, e2, sign, if_neg h4, if_neg h3]
      simp [spanDigits, h1]
    simp only [Ext.isIndex, e1, e3] at hn
    cases hn

theorem ofNat_toNat {n : Nat} (h : n < 2 ^ 32) : (UInt32.ofNat n).toNat = n := by
  exact Nat.mod_eq_of_lt h

end Verif.Ext
