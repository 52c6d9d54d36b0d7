import Verif.Payload.Model
import Verif.Json.TokProps
/-!
# Reading the header from an input that ends at a NUL (lemmas for C45)
-/

namespace Verif.Payload
open Verif Verif.Event Verif.JsonEmit Verif.JsonDrv Verif.JsonTok

/-- The bytes before the first NUL, and the rest. -/
def before (l : Bytes) : Bytes := l.takeWhile (· ≠ 0)
def after (l : Bytes) : Bytes := l.dropWhile (· ≠ 0)

theorem before_after (l : Bytes) : before l ++ after l = l := List.takeWhile_append_dropWhile

theorem before_self {l : Bytes} (h : (0 : UInt8) ∉ l) : before l = l := by
  induction l with
  | nil => rfl
  | cons x xs ih =>
    simp only [List.mem_cons, not_or] at h
    have hx : ¬ x = 0 := fun e => h.1 e.symm
    have := ih h.2
    simp only [before] at this ⊢
    simpa [List.takeWhile_cons, hx] using this

/-- A text without NUL followed by a NUL. -/
theorem before_split {a b : Bytes} (h : (0 : UInt8) ∉ a) : before (a ++ 0 :: b) = a ∧ after (a ++ 0 :: b) = 0 :: b := by
  induction a with
  | nil => simp [before, after]
  | cons x xs ih =>
    simp only [List.mem_cons, not_or] at h
    have hx : ¬ x = 0 := fun e => h.1 e.symm
    have := ih h.2
    simp only [before, after] at this ⊢
    rw [List.cons_append, List.takeWhile_cons, List.dropWhile_cons]
    simpa [hx] using this

theorem before_take (L : Nat) (l : Bytes) : before (l.take L) = (before l).take L := by
  induction l generalizing L with
  | nil => simp [before]
  | cons x xs ih =>
    cases L with
    | zero => simp [before]
    | succ L =>
      have := ih L
      by_cases hx : x = 0
      · simp [before, List.takeWhile_cons, hx]
      · simp only [before, List.take_succ_cons, List.takeWhile_cons, hx, ne_eq, not_false_eq_true, decide_true, if_true]
          at this ⊢
        rw [this]

theorem before_drop (j : Nat) (l : Bytes) (h : j ≤ (before l).length) :
    before (l.drop j) = (before l).drop j ∧ after (l.drop j) = after l := by
  induction l generalizing j with
  | nil => simp [before, after]
  | cons x xs ih =>
    cases j with
    | zero => simp
    | succ j =>
      by_cases hx : x = 0
      · simp [before, List.takeWhile_cons, hx] at h
      · have hh : j ≤ (before xs).length := by
          simp only [before, List.takeWhile_cons, hx, ne_eq, not_false_eq_true, decide_true, if_true, List.length_cons] at h ⊢
          omega
        have := ih j hh
        simp only [before, after, List.drop_succ_cons, List.takeWhile_cons, List.dropWhile_cons, hx, ne_eq,
          not_false_eq_true, decide_true, if_true] at this ⊢
        exact this

theorem parseBlock_left {fo : FloatOps} {p p' : JP} {b left : Bytes} (h : parseBlock fo p b = .ok (p', left)) :
    (∃ t, b = t ++ left ∧ (running p = true → b ≠ [] → t ≠ [])) ∧ (left ≠ [] → running p' = false) := by
  induction b generalizing p with
  | nil =>
    simp only [parseBlock, Out.ok.injEq, Prod.mk.injEq] at h
    obtain ⟨_, rfl⟩ := h
    exact ⟨⟨[], rfl, by simp⟩, by simp⟩
  | cons c cs ih =>
    simp only [parseBlock] at h
    split at h
    · cases hf : feed fo p c with
      | throw e => rw [hf] at h; simp at h
      | ub => rw [hf] at h; simp at h
      | ok q =>
        rw [hf] at h
        obtain ⟨⟨t, h1, _⟩, h2⟩ := ih h
        exact ⟨⟨c :: t, by simp [h1], by simp⟩, h2⟩
    · rename_i hr
      simp only [Out.ok.injEq, Prod.mk.injEq] at h
      obtain ⟨rfl, rfl⟩ := h
      exact ⟨⟨[], rfl, fun h => absurd h hr⟩, fun _ => by simpa using hr⟩

theorem parseProxy_stopped (fo : FloatOps) (g : Nat → Nat) (p : JP) (s : Input) (n : Nat) (h : running p = false) :
    parseProxy fo g p s n = .ok (p, s) := by
  rw [parseProxy]; simp [h]

/-- Reading through the proxy is reading the bytes before the first NUL. -/
theorem parseProxy_eq (fo : FloatOps) (g : Nat → Nat) (n : Nat) : ∀ (p : JP) (s : Input), s.rem.length = n →
    (fun r => (r.1, r.2.rem)) <$> parseProxy fo g p s 0 =
      (fun r => (r.1, r.2 ++ after s.rem)) <$> parseAll fo p (before s.rem) := by
  induction n using Nat.strongRecOn with
  | _ n ih =>
  intro p s hn
  by_cases hr : running p = true
  · obtain ⟨rem, calls⟩ := s
    simp only at hn ih ⊢
    have hp : proxyGet g ⟨rem, calls⟩ 0 0 =
        .ok (⟨rem, calls + 1⟩, (before (rem.take (max (max 0 1) (g calls)))).length,
          before (rem.take (max (max 0 1) (g calls)))) := by
      simp only [proxyGet, getPtr]
      cases rem with
      | nil => simp [before]
      | cons x xs =>
        obtain ⟨L, hL⟩ : ∃ L, max (max 0 1) (g calls) = L + 1 := ⟨max (max 0 1) (g calls) - 1, by omega⟩
        simp only [hL, List.take_succ_cons, List.getElem?_cons_zero, List.drop_zero]
        by_cases hx : x = 0
        · simp [before, List.takeWhile_cons, hx]
        · rw [if_pos hx]
          simp only [before, Nat.zero_add]
          congr 3
          exact (List.prefix_iff_eq_take.mp (List.takeWhile_prefix _)).symm
    rw [parseProxy, if_pos hr]
    simp only [hp]
    have hV : before (rem.take (max (max 0 1) (g calls))) = (before rem).take (max (max 0 1) (g calls)) := before_take _ _
    generalize hLL : max (max 0 1) (g calls) = L at hV
    have hL : 1 ≤ L := by omega
    generalize before (rem.take L) = V at hV
    by_cases hV0 : V = []
    · have hb : before rem = [] := by
        subst hV0
        rw [eq_comm, List.take_eq_nil_iff] at hV
        rcases hV with h | h
        · omega
        · exact h
      have ha : after rem = rem := by have := before_after rem; rwa [hb] at this
      rw [if_pos hV0, hb, ha]
      simp [parseAll, parseBlock, hr]
    · rw [if_neg hV0]
      have hsplit : before rem = V ++ (before rem).drop L := by rw [hV, List.take_append_drop]
      have hVlen : V.length ≤ (before rem).length := by rw [hV, List.length_take]; omega
      have hdr : (before rem).drop V.length = (before rem).drop L := by
        conv => lhs; rw [hsplit]
        rw [List.drop_left]
      have hd := before_drop V.length rem hVlen
      have hrem : rem = V ++ ((before rem).drop L ++ after rem) := by
        rw [← List.append_assoc, ← hsplit, before_after]
      rw [hsplit, parseAll, parseBlock_append]
      cases hb : parseBlock fo p V with
      | throw e => rfl
      | ub => rfl
      | ok r =>
        obtain ⟨p', left⟩ := r
        obtain ⟨⟨t, h1, h2⟩, h3⟩ := parseBlock_left hb
        have ht := h2 hr hV0
        have htl : 0 < t.length := List.length_pos_iff.mpr ht
        have hk : V.length - left.length = t.length := by rw [h1]; simp
        have hrl : t.length ≤ rem.length := by rw [hrem, h1]; simp
        simp only [hk, List.length_drop]
        rw [if_pos (by omega)]
        simp only [Out.bind_ok]
        by_cases hl : left = []
        · subst hl
          have hVt : V = t := by simpa using h1
          have hz : V.length - t.length = 0 := by simp [hVt]
          rw [if_pos rfl]
          simp only [hz]
          have := ih (rem.length - t.length) (by omega) p' (release ⟨rem, calls + 1⟩ t.length) (by simp [release])
          simp only [release] at this ⊢
          rw [this, ← hVt, hd.1, hd.2, hdr, parseAll]
        · rw [if_neg hl, parseProxy_stopped _ _ _ _ _ (h3 hl)]
          simp only [Out.bind_ok, Out.map_ok, release]
          rw [if_neg (by simp [hl])]
          simp only [Out.map_ok, Out.ok.injEq, Prod.mk.injEq, true_and]
          conv => lhs; rw [hrem, h1]
          rw [List.append_assoc, List.drop_left]
          simp
  · have hr' : running p = false := by simpa using hr
    rw [parseProxy_stopped _ _ _ _ _ hr', parseAll]
    have hb : parseBlock fo p (before s.rem) = .ok (p, before s.rem) := by
      cases before s.rem with
      | nil => rfl
      | cons c cs => simp [parseBlock, hr']
    rw [hb]
    simp [hr', before_after]

/-- After the loop the input stands just past the first NUL. -/
theorem skipNul_rem (g : Nat → Nat) (s : Input) : (skipNul g s).rem = (after s.rem).drop 1 := by
  induction s using skipNul.induct g with
  | case1 s h =>
    rw [skipNul]
    split
    · simp only [getPtr, List.take_eq_nil_iff] at h
      have : s.rem = [] := by
        rcases h with h | h
        · omega
        · exact h
      simp [getPtr, this, after]
    · rename_i hc; rw [h] at hc; cases hc
  | case2 s c r h h0 =>
    rw [skipNul]
    split
    · rename_i hc; rw [h] at hc; cases hc
    · rename_i c' r' hc
      rw [h] at hc
      cases hc
      rw [if_pos h0]
      simp only [getPtr] at h
      have hb : (before s.rem).take (max (max 1 1) (g s.calls)) = before (c :: r) := by rw [← h, before_take]
      have hlt : (before (c :: r)).length < (c :: r).length := by
        have h1 := congrArg List.length (before_after (c :: r))
        have : after (c :: r) ≠ [] := by
          intro e
          have h2 := before_after (c :: r)
          rw [e, List.append_nil] at h2
          rw [← h2] at h0
          have := List.all_takeWhile (p := (· ≠ (0 : UInt8))) (l := c :: r)
          rw [List.all_eq_true] at this
          simpa using this 0 h0
        have := List.length_pos_iff.mpr this
        rw [List.length_append] at h1
        omega
      have hlen : (c :: r).length ≤ max (max 1 1) (g s.calls) := by rw [← h, List.length_take]; omega
      have hbe : before (c :: r) = before s.rem := by
        rw [← hb, List.take_of_length_le]
        have h1 := congrArg List.length hb
        rw [List.length_take] at h1
        omega
      show (s.rem.drop ((before (c :: r)).length + 1)) = _
      rw [hbe, ← List.drop_drop]
      conv => lhs; rw [← before_after s.rem]
      rw [show before (before s.rem ++ after s.rem) = before s.rem by rw [before_after], List.drop_left]
  | case3 s c r h h0 ih =>
    rw [skipNul]
    split
    · rename_i hc; rw [h] at hc; cases hc
    · rename_i c' r' hc
      rw [h] at hc
      cases hc
      rw [if_neg h0, ih]
      simp only [getPtr, release] at h ⊢
      have hbf : before (c :: r) = c :: r := before_self h0
      have hb : (before s.rem).take (max (max 1 1) (g s.calls)) = c :: r := by rw [← before_take, h, hbf]
      have hle : (c :: r).length ≤ (before s.rem).length := by rw [← hb, List.length_take]; omega
      rw [(before_drop _ _ hle).2]

end Verif.Payload
