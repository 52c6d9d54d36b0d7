import Verif.Bundle.Spec
import Verif.IO.StreamProps
/-!
# Reading lines
-/

namespace Verif.Bundle
open Verif Verif.JsonDrv
open Verif.Guess (Blank)

/-- `R rem avail s`: in state `s` the input has `rem` to give and gave out `avail` bytes of it.  Requests up to `M`
bytes are answered by a beginning of `rem` that is long enough, or all of it, and what was given out can be released. -/
structure Serves {σ : Type} (I : Input σ) (M : Nat) (R : Bytes → Nat → σ → Prop) : Prop where
  get : ∀ {rem avail s n}, R rem avail s → n ≤ M →
    ∃ s' v, I.get s n = some (s', v) ∧ R rem v.length s' ∧ v <+: rem ∧ (max n 1 ≤ v.length ∨ v = rem) ∧ avail ≤ v.length
  release : ∀ {rem avail s n}, R rem avail s → n ≤ avail → ∃ s', I.release s n = some s' ∧ R (rem.drop n) (avail - n) s'

theorem memory_serves (M : Nat) : Serves memory M fun rem avail s => s = rem ∧ avail ≤ rem.length where
  get := by
    rintro rem avail s n ⟨rfl, h⟩ _
    exact ⟨s, s, rfl, ⟨rfl, Nat.le_refl _⟩, List.prefix_rfl, .inr rfl, h⟩
  release := by
    rintro rem avail s n ⟨rfl, h⟩ hn
    refine ⟨s.drop n, by simp only [memory]; rw [if_pos (by omega)], rfl, ?_⟩
    simp; omega

theorem stream_serves {M : Nat} (hM : 2 * M < 2 ^ 32) :
    Serves stream M fun rem avail s => IO.Inv M rem s ∧ avail ≤ s.num where
  get := by
    rintro rem avail s n ⟨h, ha⟩ hn
    obtain ⟨s', h1, h2, h3, h4⟩ := IO.getPtr_inv h n hn hM
    have hl := IO.view_length h2.fits
    refine ⟨s', s'.view, h1, ⟨h2, by omega⟩, ⟨s'.rest, h2.rem_eq.symm⟩, ?_, by omega⟩
    rcases h4 with h4 | h4
    · exact .inl (by omega)
    · refine .inr ?_
      have := h2.rem_eq
      rw [h4, List.append_nil] at this
      exact this.symm
  release := by
    rintro rem avail s n ⟨h, ha⟩ hn
    obtain ⟨s', h1, h2, h3⟩ := IO.release_inv h n (by omega)
    exact ⟨s', h1, h2, by omega⟩

theorem takeWhile_mem {α : Type} {p : α → Bool} {l : List α} {x : α} (h : x ∈ l.takeWhile p) : p x = true := by
  induction l with
  | nil => cases h
  | cons y l ih =>
    simp only [List.takeWhile] at h
    split at h
    · rcases List.mem_cons.1 h with rfl | h
      · assumption
      · exact ih h
    · cases h

theorem line_split {l : Bytes} (h : 10 ∉ l) (t : Bytes) : (l ++ 10 :: t).takeWhile (· ≠ 10) = l := by
  induction l with
  | nil => simp
  | cons x l ih =>
    simp only [List.mem_cons, not_or] at h
    have : decide (x ≠ 10) = true := by simpa using fun e => h.1 e.symm
    simp only [List.cons_append, List.takeWhile, this]
    rw [ih h.2]

theorem take_takeWhile {v : Bytes} {pos : Nat} (h : 10 ∉ v.take pos) (r : Bytes) (hm : 10 ∈ v.drop pos) :
    v.take pos ++ (v.drop pos).takeWhile (· ≠ 10) = (v ++ r).takeWhile (· ≠ 10) ∧
      (v.take pos ++ (v.drop pos).takeWhile (· ≠ 10)).length + 1 ≤ v.length := by
  obtain ⟨a, b, hab, ha⟩ : ∃ a b, v.drop pos = a ++ 10 :: b ∧ 10 ∉ a := by
    clear h
    generalize v.drop pos = w at hm
    induction w with
    | nil => cases hm
    | cons x l ih =>
      by_cases hx : x = 10
      · exact ⟨[], l, by rw [hx]; rfl, nofun⟩
      · rcases List.mem_cons.1 hm with h | h
        · exact absurd h.symm hx
        · obtain ⟨a, b, h1, h2⟩ := ih h
          exact ⟨x :: a, b, by rw [h1]; rfl, by simp only [List.mem_cons, not_or]; exact ⟨fun e => hx e.symm, h2⟩⟩
  have hv : v = v.take pos ++ a ++ 10 :: b := by rw [List.append_assoc, ← hab, List.take_append_drop]
  have h3 : 10 ∉ v.take pos ++ a := by simp only [List.mem_append, not_or]; exact ⟨h, ha⟩
  have h4 : (v ++ r).takeWhile (· ≠ 10) = v.take pos ++ a := by
    conv => lhs; rw [hv]
    rw [List.append_assoc, List.cons_append]
    exact line_split h3 _
  rw [h4, hab, line_split ha]
  refine ⟨rfl, ?_⟩
  conv => rhs; rw [hv]
  simp only [List.length_append, List.length_cons]
  omega

theorem readLine_spec {σ : Type} {I : Input σ} {M : Nat} {R : Bytes → Nat → σ → Prop} (hI : Serves I M R) :
    ∀ (fuel : Nat) (s : σ) (rem : Bytes) (avail pos len : Nat), R rem avail s → pos ≤ avail → pos ≤ rem.length →
      10 ∉ rem.take pos → pos < max len 1 → len ≤ pos + 4096 → rem.length + 4096 ≤ M → rem.length - pos < fuel →
      ∃ s' avail' r, readLine I fuel s pos len = some (s', r) ∧ R rem avail' s' ∧
        ((10 ∈ rem ∧ r = some (rem.takeWhile (· ≠ 10)) ∧ (rem.takeWhile (· ≠ 10)).length + 1 ≤ avail') ∨ (10 ∉ rem ∧ r = none)) := by
  intro fuel
  induction fuel with
  | zero => intro s rem avail pos len _ _ _ _ _ _ _ h; omega
  | succ fuel ih =>
    intro s rem avail pos len hR hpa hpr hno hlt hle hM hf
    obtain ⟨s', v, h1, h2, h3, h4, h5⟩ := hI.get (n := len) hR (by omega)
    obtain ⟨r, rfl⟩ := h3
    rw [readLine, h1]
    dsimp only
    by_cases hstop : v = [] ∨ pos = v.length
    · rw [if_pos hstop]
      refine ⟨s', _, none, rfl, h2, .inr ⟨?_, rfl⟩⟩
      have hv : v = v ++ r := by
        rcases h4 with h4 | h4
        · rcases hstop with rfl | h
          · simp at h4
          · omega
        · exact h4
      rcases hstop with h | h
      · rw [← hv, h]; nofun
      · rw [← hv] at hno ⊢
        rw [h, List.take_length] at hno
        exact hno
    · rw [if_neg hstop]
      have hpv : pos ≤ v.length := by omega
      have hno' : 10 ∉ v.take pos := by
        rw [List.take_append_of_le_length hpv] at hno; exact hno
      by_cases hm : 10 ∈ v.drop pos
      · rw [if_pos hm]
        obtain ⟨h6, h7⟩ := take_takeWhile hno' r hm
        refine ⟨s', _, _, rfl, h2, .inl ⟨?_, ?_, ?_⟩⟩
        · exact List.mem_append_left _ (List.mem_of_mem_drop hm)
        · rw [h6]
        · rw [← h6]; exact h7
      · rw [if_neg hm]
        have hne : pos ≠ v.length := fun h => hstop (.inr h)
        refine ih s' (v ++ r) v.length v.length (v.length + 4096) h2 (Nat.le_refl _) (by simp) ?_ (by omega) (by omega) hM ?_
        · rw [List.take_left]
          intro h
          rw [← List.take_append_drop pos v] at h
          rcases List.mem_append.1 h with h | h
          · exact hno' h
          · exact hm h
        · simp only [List.length_append] at hf ⊢; omega

end Verif.Bundle
