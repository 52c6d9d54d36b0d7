import Verif.Uri.Dots
/-!
# C46: removing dot segments as in RFC 3986
-/

namespace Verif.Uri
open Verif

/-- Following the segments one never steps out of the root: before any point, there are at most as
many ".." as names. -/
def StaysInside (l : List Bytes) : Prop :=
  ∀ k, (l.take k).count [46, 46] ≤ (l.take k).countP (fun s => decide (s ≠ [46] ∧ s ≠ [46, 46]))

/-- The same, with `n` segments already there. -/
def Inside (n : Nat) (l : List Bytes) : Prop :=
  ∀ k, (l.take k).count [46, 46] ≤ n + (l.take k).countP (fun s => decide (s ≠ [46] ∧ s ≠ [46, 46]))

theorem inside_dot {n : Nat} {l : List Bytes} (h : Inside n ([46] :: l)) : Inside n l := by
  intro k
  have := h (k + 1)
  simpa using this

theorem inside_up {n : Nat} {l : List Bytes} (h : Inside n ([46, 46] :: l)) : 0 < n ∧ Inside (n - 1) l := by
  have h1 := h 1
  simp at h1
  refine ⟨h1, fun k => ?_⟩
  have := h (k + 1)
  simp at this ⊢
  omega

theorem inside_name {n : Nat} {s : Bytes} {l : List Bytes} (h1 : s ≠ [46]) (h2 : s ≠ [46, 46]) (h : Inside n (s :: l)) :
    Inside (n + 1) l := by
  intro k
  have := h (k + 1)
  simp [h1, h2] at this ⊢
  omega

theorem rfc_name {s t : Bytes} (out : Bytes) (hs : (47 : UInt8) ∉ s) (h1 : s ≠ [46]) (h2 : s ≠ [46, 46])
    (ht : t = [] ∨ t.head? = some 47) : rfcDots (47 :: (s ++ t)) out = rfcDots t (out ++ 47 :: s) := by
  have hd : (s ++ t).dropWhile (· ≠ 47) = t ∧ (s ++ t).takeWhile (· ≠ 47) = s := by
    clear h1 h2
    induction s with
    | nil =>
      rcases ht with rfl | ht
      · exact ⟨rfl, rfl⟩
      · cases t <;> simp at ht; simp [ht]
    | cons c s ih =>
      simp at hs
      have hc : c ≠ 47 := fun e => hs.1 e.symm
      obtain ⟨e1, e2⟩ := ih hs.2
      simp only [List.cons_append, List.dropWhile_cons, List.takeWhile_cons, hc, ne_eq, not_false_eq_true, decide_true,
        if_true]
      exact ⟨e1, by rw [e2]⟩
  have hE : ∀ c r, c :: r = 47 :: (s ++ t) →
      rfcDots (r.dropWhile (· ≠ 47)) (out ++ c :: r.takeWhile (· ≠ 47)) = rfcDots t (out ++ 47 :: s) := by
    rintro c r ⟨⟩
    rw [hd.1, hd.2]
  have key : ∀ (r : Bytes), (s ++ t = 46 :: 47 :: r → False) ∧ (s ++ t = [46] → False) ∧ (s ++ t = 46 :: 46 :: 47 :: r → False) ∧
      (s ++ t = [46, 46] → False) := by
    intro r
    match s, hs, h1, h2 with
    | [], _, _, _ => rcases ht with rfl | ht
                     · simp
                     · cases t <;> simp at ht; subst ht; simp
    | [a], _, h1, _ => rcases ht with rfl | ht
                       · simp; simpa using h1
                       · cases t <;> simp at ht; subst ht; simp at h1 ⊢; simp [h1]
    | [a, b], hs, h1, h2 => rcases ht with rfl | ht
                            · simp at hs h2 ⊢
                              exact ⟨fun _ e => absurd e.symm hs.2, h2⟩
                            · cases t <;> simp at ht; subst ht; simp at hs h2 ⊢
                              exact ⟨fun _ e => absurd e.symm hs.2, fun e e' => absurd e' (h2 e)⟩
    | a :: b :: c :: s, hs, _, _ =>
      simp at hs ⊢
      exact ⟨fun _ e => absurd e.symm hs.2.1, fun _ _ e => absurd e.symm hs.2.2.1⟩
  rw [rfcDots.eq_def]
  split
  · rename_i h; cases h
  · rename_i h; cases h
  · rename_i h; cases h
  · rename_i r h; simp only [List.cons.injEq, true_and] at h; exact ((key r).1 h).elim
  · rename_i h; simp only [List.cons.injEq, true_and] at h; exact ((key []).2.1 h).elim
  · rename_i r h; simp only [List.cons.injEq, true_and] at h; exact ((key r).2.2.1 h).elim
  · rename_i h; simp only [List.cons.injEq, true_and] at h; exact ((key []).2.2.2 h).elim
  · rename_i h; cases h
  · rename_i h; cases h
  · rename_i c r _ _ _ _ _ _ _ _ h
    exact hE _ _ h.symm

theorem dropSegment_append (a s : Bytes) (h : (47 : UInt8) ∉ s) : dropSegment (a ++ 47 :: s) = a := by
  unfold dropSegment
  have : ∀ (t : Bytes) (u : Bytes), (47 : UInt8) ∉ t → (t ++ 47 :: u).dropWhile (· ≠ 47) = 47 :: u := by
    intro t u ht
    induction t with
    | nil => simp
    | cons c t ih =>
      simp at ht
      have hc : c ≠ 47 := fun e => ht.1 e.symm
      simp only [List.cons_append, List.dropWhile_cons, hc, ne_eq, not_false_eq_true, decide_true, if_true]
      exact ih ht.2
  rw [List.reverse_append, List.reverse_cons, List.append_assoc, List.singleton_append, this _ _ (by simpa using h)]
  simp

theorem joinSegs_dropLast {l : List Bytes} (hl : l ≠ []) (h : ∀ x ∈ l, (47 : UInt8) ∉ x) :
    dropSegment (joinSegs true l) = joinSegs true l.dropLast := by
  rcases List.eq_nil_or_concat l with rfl | ⟨a, s, rfl⟩
  · exact absurd rfl hl
  · simp only [List.concat_eq_append] at h ⊢
    by_cases ha : a = []
    · subst ha
      have := dropSegment_append [] s (h s (by simp))
      simp [joinSegs]
      simpa using this
    · rw [joinSegs_append _ _ ha]
      simp [joinSegs]
      exact dropSegment_append _ _ (h s (by simp))

/-- The text written for a state when there is a leading slash. -/
def textOf (st : List Bytes × Nat) : Bytes :=
  joinSegs true st.1 ++ if st.1 = [] ∨ (st.2 > 0 ∧ st.2 = st.1.length) then [47] else []

theorem textOf_dot (out : List Bytes) : textOf (out, out.length) = joinSegs true out ++ [47] := by
  unfold textOf
  simp only
  rw [if_pos]
  by_cases h : out = []
  · exact .inl h
  · exact .inr ⟨List.length_pos_iff.mpr h, trivial⟩

theorem textOf_name {out : List Bytes} {s : Bytes} {d : Nat} (h : d ≤ out.length) :
    textOf (out ++ [s], d) = joinSegs true (out ++ [s]) := by
  unfold textOf
  simp only
  rw [if_neg]
  · simp
  · simp
    omega

theorem rfc_fold {l : List Bytes} : ∀ {st : List Bytes × Nat}, l ≠ [] → (∀ x ∈ l, (47 : UInt8) ∉ x) →
    (∀ x ∈ st.1, (47 : UInt8) ∉ x) → st.2 ≤ st.1.length → Inside st.1.length l → st.1.length + l.length < 2 ^ 32 →
    rfcDots (joinSegs true l) (joinSegs true st.1) = textOf (l.foldl dotStep st) := by
  induction l with
  | nil => intro st h; exact absurd rfl h
  | cons s r ih =>
    intro st _ hx ho hd hin hlen
    have hs := hx s (by simp)
    have hxr : ∀ x ∈ r, (47 : UInt8) ∉ x := fun x h => hx x (by simp [h])
    simp only [List.length_cons] at hlen
    have hroot : ∀ out, rfcDots [47] out = out ++ [47] := by
      intro out
      have := rfc_name (s := []) (t := []) out (by simp) (by simp) (by simp) (.inl rfl)
      simpa [rfcDots] using this
    obtain ⟨out, d⟩ := st
    simp only at ho hd hin hlen ⊢
    rw [List.foldl_cons]
    by_cases h1 : s = [46]
    · subst h1
      have hst : dotStep (out, d) [46] = (out, out.length) := by
        simp [dotStep]; omega
      rw [hst]
      cases r with
      | nil =>
        rw [List.foldl_nil, textOf_dot, show joinSegs true [[46]] = [47, 46] from rfl, rfcDots, hroot]
      | cons t r =>
        rw [← ih (st := (out, out.length)) (by simp) hxr ho (Nat.le_refl _) (inside_dot hin) (by simp at hlen ⊢; omega)]
        simp only [joinSegs, if_true, List.cons_append, List.nil_append, List.append_assoc]
        rw [rfcDots]
    · by_cases h2 : s = [46, 46]
      · subst h2
        obtain ⟨h3, h4⟩ := inside_up hin
        have hne : out ≠ [] := List.length_pos_iff.mp h3
        have hst : dotStep (out, d) [46, 46] = (out.dropLast, out.dropLast.length) := by
          simp [dotStep, hne]; omega
        rw [hst]
        have hdl := joinSegs_dropLast hne ho
        cases r with
        | nil =>
          rw [List.foldl_nil, textOf_dot, show joinSegs true [[46, 46]] = [47, 46, 46] from rfl, rfcDots, hroot, hdl]
        | cons t r =>
          rw [← ih (st := (out.dropLast, out.dropLast.length)) (by simp) hxr
            (fun x h => ho x (List.dropLast_subset _ h)) (Nat.le_refl _) (by simpa using h4) (by simp at hlen ⊢; omega)]
          simp only [joinSegs, if_true, List.cons_append, List.nil_append, List.append_assoc]
          rw [rfcDots, hdl]
      · have hst : dotStep (out, d) s = (out ++ [s], d) := by simp [dotStep, h1, h2]
        rw [hst]
        have hjo : joinSegs true (out ++ [s]) = joinSegs true out ++ 47 :: s := by
          by_cases h : out = []
          · subst h; simp [joinSegs]
          · rw [joinSegs_append _ _ h]; simp [joinSegs]
        cases r with
        | nil =>
          rw [List.foldl_nil, textOf_name hd, show joinSegs true [s] = 47 :: (s ++ []) from by simp [joinSegs],
            rfc_name _ hs h1 h2 (.inl rfl), rfcDots, hjo]
        | cons t r =>
          rw [← ih (st := (out ++ [s], d)) (by simp) hxr (by
              intro x hx'
              simp only [List.mem_append, List.mem_singleton] at hx'
              rcases hx' with h | rfl
              · exact ho x h
              · exact hs) (by simp; omega) (by simpa using inside_name h1 h2 hin) (by simp at hlen ⊢; omega)]
          rw [joinSegs]
          simp only [if_true, List.cons_append, List.nil_append, List.append_assoc]
          rw [rfc_name _ hs h1 h2 (.inr (by simp [joinSegs])), hjo]

/-- C46.  An absolute path that stays inside the root comes out as RFC 3986 says. -/
theorem dots_rfc_partial {path : Bytes} {l : List Bytes} (hseg : Segments (47 :: path) ([] :: l)) (hin : StaysInside l)
    (hlen : l.length < 2 ^ 32) : removeDots (47 :: path) = removeDotSegments (47 :: path) := by
  rw [segments_iff] at hseg
  have hl : l ≠ [] := by
    rintro rfl
    simp [segs] at hseg
    exact segs_ne _ hseg
  have hns := segs_noslash (47 :: path)
  have hj := join_segs (47 :: path)
  rw [hseg] at hns hj
  have h := rfc_fold (l := l) (st := ([], 0)) hl (fun x h => hns x (by simp [h])) (by simp) (by simp)
    (by intro k; simpa using hin k) (by simpa using hlen)
  rw [joinSegs_true, hj] at h
  rw [removeDots_eq hseg hl]
  unfold removeDotSegments
  rw [show joinSegs true ([], 0).1 = [] from rfl] at h
  rw [h]
  simp only [start, if_true, result, textOf]
  generalize List.foldl dotStep ([], 0) l = st
  obtain ⟨out, d⟩ := st
  by_cases h1 : out = []
  · simp [h1, joinSegs]
  · simp only [h1, if_false, false_or]
    rw [joinSegs_true]
    split
    · rw [joinSegs_append _ _ (by simp)]; simp [joinSegs]
    · simp

/-- The hypotheses are met by "/a/../b". -/
example : removeDots [47, 97, 47, 46, 46, 47, 98] = removeDotSegments [47, 97, 47, 46, 46, 47, 98] := by
  apply dots_rfc_partial (l := [[97], [46, 46], [98]])
  · rw [segments_iff]; decide
  · intro k
    match k with
    | 0 => simp
    | 1 => simp
    | 2 => simp
    | k + 3 => simp
  · decide

/-- "/a/./b/../c/." -/
example : removeDots [47, 97, 47, 46, 47, 98, 47, 46, 46, 47, 99, 47, 46] = [47, 97, 47, 99, 47] := by decide

/-- C46, finding: a path that steps out of the root keeps one ".." in front and loses every second
one: RFC 3986 makes "/../a" into "/a", here it stays; "../../b" becomes "b". -/
theorem dots_rfc_false :
    removeDots [47, 46, 46, 47, 97] = [47, 46, 46, 47, 97] ∧ removeDotSegments [47, 46, 46, 47, 97] = [47, 97] ∧
    removeDots [46, 46, 47, 46, 46, 47, 98] = [98] := by
  refine ⟨by decide, ?_, by decide⟩
  simp [removeDotSegments, rfcDots, dropSegment]

end Verif.Uri
