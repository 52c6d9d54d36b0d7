import Verif.Json.Tok
import Verif.Base64.Lemmas
/-!
# Tokenizer invariant (lemmas for C07)
-/

namespace Verif.JsonTok
open Verif.B64 (forall_byte)

/-! ## Classes -/

theorem class_ok (c : UInt8) : ∃ k, classOf c = some k ∧ -1 ≤ k ∧ k < 32 :=
  forall_byte (p := fun c => ∃ k, classOf c = some k ∧ -1 ≤ k ∧ k < 32) (by
    intro n
    have : ∀ n : Fin 256, (match classOf (UInt8.ofNat n.val) with
      | some k => decide (-1 ≤ k ∧ k < 32)
      | none => false) = true := by decide +kernel
    have := this n
    split at this
    · rename_i k hk; exact ⟨k, hk, by simpa using this⟩
    · simp at this) c

theorem class_facts (c : UInt8) :
    (classOf c = some 14 ∨ classOf c = some 15 → isDigit c = true) ∧
    (classOf c = some 13 → c = 46) ∧ (classOf c = some 12 → c = 45) ∧
    (classOf c = some 27 → c = 0x75) ∧
    ((∃ k ∈ [14,15,16,17,18,19,20,21,28,29], classOf c = some k) → hexVal c < 16) :=
  forall_byte (p := fun c => (classOf c = some 14 ∨ classOf c = some 15 → isDigit c = true) ∧
    (classOf c = some 13 → c = 46) ∧ (classOf c = some 12 → c = 45) ∧
    (classOf c = some 27 → c = 0x75) ∧
    ((∃ k ∈ [14,15,16,17,18,19,20,21,28,29], classOf c = some k) → hexVal c < 16))
    (by decide +kernel) c

/-! ## Rows of the transition table -/

/-- Entry of the table, for valid indexes. -/
def entry (s : Nat) (k : Nat) : Int := (transitionTable.getD s []).getD k 0

theorem lookup_entry (s k : Nat) (hs : s < 36) (hk : k < 32) :
    lookup (s : Int) (k : Int) = some (entry s k) := by
  have : ∀ (s : Fin 36) (k : Fin 32), lookup (s.val : Int) (k.val : Int) = some (entry s.val k.val) := by
    decide +kernel
  exact this ⟨s, hs⟩ ⟨k, hk⟩

/-! ## Number texts -/

/-- The text starts with an optional minus sign (exactly when `neg`) and at least one digit. -/
def NumText (neg : Bool) (b : Bytes) : Prop :=
  ∃ ds rest, b = (if neg then [45] else []) ++ (ds ++ rest) ∧ ds ≠ [] ∧ ∀ d ∈ ds, isDigit d = true

theorem NumText.append {neg b} (h : NumText neg b) (x : Bytes) : NumText neg (b ++ x) := by
  obtain ⟨ds, rest, e, h1, h2⟩ := h
  exact ⟨ds, rest ++ x, by rw [e]; simp, h1, h2⟩

theorem spanDigits_prefix (ds rest : Bytes) (h1 : ds ≠ []) (h2 : ∀ d ∈ ds, isDigit d = true) :
    (spanDigits (ds ++ rest)).1 ≠ [] := by
  cases ds with
  | nil => exact absurd rfl h1
  | cons d ds => simp [spanDigits, h2 d (by simp)]

theorem scanDec_ne_none {neg b} (lo hi : Int) (h : NumText neg b) : scanDec lo hi b ≠ none := by
  obtain ⟨ds, rest, e, h1, h2⟩ := h
  have hs := spanDigits_prefix ds rest h1 h2
  cases ds with
  | nil => exact absurd rfl h1
  | cons d ds =>
    have hd := h2 d (by simp)
    have h45 : d ≠ 45 := by rintro rfl; revert hd; decide
    have h43 : d ≠ 43 := by rintro rfl; revert hd; decide
    cases neg
    · have e1 : skipSpace b = d :: (ds ++ rest) := by
        rw [e]; simp [skipSpace, isSpace_of_isDigit hd]
      unfold scanDec
      simp only [e1]
      split
      · rename_i h4; simp at h4; exact absurd h4.1 h45
      · rename_i h4; simp at h4; exact absurd h4.1 h43
      · simp at hs
        simp [hs]
    · have e1 : skipSpace b = 45 :: (d :: (ds ++ rest)) := by
        rw [e]; simp [skipSpace, isSpace]
      unfold scanDec
      simp only [e1]
      simp at hs
      simp [hs]

/-! ## The invariant -/

/-- Not inside an escape or a comment. -/
def NC (t : Tok) : Prop := t.escaped = false ∧ t.comment = false

/-- The last `n` bytes of the buffer are hexadecimal digits and at least `n + 2` bytes are
buffered. -/
def HexTail (n : Nat) (b : Bytes) : Prop :=
  n + 2 ≤ b.length ∧ ∀ x ∈ b.drop (b.length - n), hexVal x < 16

theorem HexTail.push {n b c} (h : HexTail n b) (hc : hexVal c < 16) : HexTail (n + 1) (b ++ [c]) := by
  obtain ⟨h1, h2⟩ := h
  refine ⟨by simp; omega, ?_⟩
  intro x hx
  have e : (b ++ [c]).length - (n + 1) = b.length - n := by simp
  rw [e, List.drop_append_of_le_length (by omega)] at hx
  rcases List.mem_append.1 hx with hx | hx
  · exact h2 x hx
  · simp at hx; subst hx; exact hc

theorem decode_safe (t : Tok) (h : HexTail 4 t.buf) :
    (∃ b hs, decodeUnicode t = .good { t with buf := b, hs := hs }) ∨ ∃ t', decodeUnicode t = .bad t' := by
  obtain ⟨h1, h2⟩ := h
  have ha : ((t.buf.drop (t.buf.length - 4)).map hexVal).any (fun x => decide (16 ≤ x)) = false := by
    rw [List.any_eq_false]
    intro x hx
    obtain ⟨y, hy, rfl⟩ := List.mem_map.1 hx
    have := h2 y hy
    simp; omega
  unfold decodeUnicode
  rw [if_neg (by omega)]
  simp only [ha, Bool.false_eq_true, if_false]
  generalize List.foldl _ _ _ = uc
  repeat' split
  all_goals first
    | exact Or.inr ⟨_, rfl⟩
    | exact Or.inl ⟨_, _, rfl⟩

/-! ## One step -/

theorem charStep_eq {t : Tok} {c : UInt8} {k : Nat} {t1 : Tok} {s : Nat} (hc : classOf c = some (k : Int))
    (hk : k < 32) (ha : addChar t c k = .good t1) (hs : t1.state = (s : Int)) (hs' : s < 36) :
    charStep t c = if 0 ≤ entry s k then .cont { t1 with state := entry s k } []
      else action t1 (entry s k) := by
  unfold charStep
  rw [hc]
  simp only
  rw [if_neg (by omega), ha]
  simp only
  rw [hs, lookup_entry s k hs' hk]

theorem addChar_typed {t : Tok} (c : UInt8) (k : Int) (h : NC t) (ht : t.type ≠ .none) :
    addChar t c k = .good (pushBack t c) := by
  simp [addChar, h.1, h.2, ht]

theorem addChar_white {t : Tok} (c : UInt8) (k : Int) (h : NC t) (ht : t.type = .none)
    (hk : k = 0 ∨ k = 1) : addChar t c k = .good t := by
  rcases hk with rfl | rfl <;> simp [addChar, h.1, h.2, ht, C_SPACE, C_WHITE]

theorem addChar_black {t : Tok} (c : UInt8) (k : Int) (h : NC t) (hk : ¬ (k = 0 ∨ k = 1)) :
    addChar t c k = .good (pushBack t c) := by
  simp only [not_or] at hk
  simp [addChar, h.1, h.2, hk.1, hk.2]

theorem addChar_comment {t : Tok} (c : UInt8) (k : Int) (h1 : t.escaped = false)
    (h2 : t.comment = true) : addChar t c k = .good t := by
  simp [addChar, h1, h2]

@[simp] theorem popBack_pushBack (t : Tok) (c : UInt8) : popBack (pushBack t c) = some t := by
  simp [popBack, pushBack]

theorem action_rej (t : Tok) : action t XX = .rej t [] := by
  simp [action]

end Verif.JsonTok
