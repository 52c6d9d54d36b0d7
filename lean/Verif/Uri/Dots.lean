import Verif.Uri.Model
import Verif.Uri.Spec
/-!
# C46: removing dot segments
-/

namespace Verif.Uri
open Verif

/-! ## Segments -/

theorem segs_ne (s : Bytes) : segs s ≠ [] := by
  cases s with
  | nil => simp [segs]
  | cons c r =>
    simp only [segs]
    split
    · simp
    · split <;> simp

theorem segs_noslash (s : Bytes) : ∀ x ∈ segs s, (47 : UInt8) ∉ x := by
  induction s with
  | nil => simp [segs]
  | cons c r ih =>
    simp only [segs]
    split
    · intro x hx
      simp only [List.mem_cons] at hx
      rcases hx with rfl | hx
      · simp
      · exact ih x hx
    · rename_i hc
      split
      · rename_i h; exact absurd h (segs_ne r)
      · rename_i y t h
        intro x hx
        rw [h] at ih
        simp only [List.mem_cons] at hx
        rcases hx with rfl | hx
        · have := ih y (by simp)
          simp [this]
          exact fun e => hc e.symm
        · exact ih x (by simp [hx])

theorem join_segs (s : Bytes) : joinSegs false (segs s) = s := by
  induction s with
  | nil => simp [segs, joinSegs]
  | cons c r ih =>
    simp only [segs]
    split
    · rename_i hc
      subst hc
      obtain ⟨y, t, h⟩ := List.exists_cons_of_ne_nil (segs_ne r)
      rw [h] at ih ⊢
      simp only [joinSegs] at ih ⊢
      simp at ih ⊢
      exact ih
    · split
      · rename_i h; exact absurd h (segs_ne r)
      · rename_i y t h
        rw [h] at ih
        simp only [joinSegs] at ih ⊢
        simp at ih ⊢
        exact ih

theorem segs_append {s r : Bytes} (h : (47 : UInt8) ∉ s) : segs (s ++ 47 :: r) = s :: segs r := by
  induction s with
  | nil => simp [segs]
  | cons c s ih =>
    simp at h
    simp only [List.cons_append, segs, ih h.2]
    rw [if_neg (fun e => h.1 e.symm)]

theorem segs_one {s : Bytes} (h : (47 : UInt8) ∉ s) : segs s = [s] := by
  induction s with
  | nil => simp [segs]
  | cons c s ih =>
    simp at h
    simp only [segs, ih h.2]
    rw [if_neg (fun e => h.1 e.symm)]

theorem segs_join {l : List Bytes} (hl : l ≠ []) (h : ∀ x ∈ l, (47 : UInt8) ∉ x) : segs (joinSegs false l) = l := by
  induction l with
  | nil => exact absurd rfl hl
  | cons s r ih =>
    cases r with
    | nil => simp [joinSegs]; exact segs_one (h s (by simp))
    | cons t r =>
      have := ih (by simp) (fun x hx => h x (by simp [hx]))
      simp only [joinSegs] at this ⊢
      simp only [Bool.false_eq_true, if_false, List.nil_append, if_true, List.cons_append, List.append_assoc] at this ⊢
      rw [segs_append (h s (by simp)), this]

/-- The segments of the model are those of the specification. -/
theorem segments_iff {s : Bytes} {l : List Bytes} : Segments s l ↔ segs s = l := by
  constructor
  · intro h
    induction h with
    | last h => exact segs_one h
    | cons h _ ih => rw [segs_append h, ih]
  · intro h
    have key : ∀ l : List Bytes, l ≠ [] → (∀ x ∈ l, (47 : UInt8) ∉ x) → Segments (joinSegs false l) l := by
      intro l
      induction l with
      | nil => intro h; exact absurd rfl h
      | cons s r ih =>
        intro _ hx
        cases r with
        | nil => simp [joinSegs]; exact .last (hx s (by simp))
        | cons t r =>
          have := ih (by simp) (fun x h => hx x (by simp [h]))
          simp only [joinSegs] at this ⊢
          simp only [Bool.false_eq_true, if_false, List.nil_append, if_true, List.cons_append, List.append_assoc] at this ⊢
          exact .cons (hx s (by simp)) this
    rw [← join_segs s, h]
    subst h
    exact key _ (segs_ne s) (segs_noslash s)

/-! ## The loop -/

/-- No dot segments, save perhaps ".." in front. -/
def Tidy : List Bytes → Prop
  | [] => True
  | s :: r => s ≠ [46] ∧ ∀ x ∈ r, x ≠ [46] ∧ x ≠ [46, 46]

theorem tidy_mem {l : List Bytes} (h : Tidy l) : ∀ x ∈ l, x ≠ [46] := by
  cases l with
  | nil => simp
  | cons s r =>
    intro x hx
    simp only [List.mem_cons] at hx
    rcases hx with rfl | hx
    · exact h.1
    · exact (h.2 x hx).1

theorem tidy_append {l : List Bytes} {s : Bytes} (h : Tidy l) (h1 : s ≠ [46]) (h2 : l = [] ∨ s ≠ [46, 46]) : Tidy (l ++ [s]) := by
  cases l with
  | nil => exact ⟨h1, by simp⟩
  | cons t r =>
    refine ⟨h.1, ?_⟩
    intro x hx
    simp only [List.append_eq, List.mem_append, List.mem_singleton] at hx
    rcases hx with hx | rfl
    · exact h.2 x hx
    · exact ⟨h1, h2.resolve_left (by simp)⟩

theorem tidy_dropLast {l : List Bytes} (h : Tidy l) : Tidy l.dropLast := by
  cases l with
  | nil => trivial
  | cons t r =>
    cases r with
    | nil => trivial
    | cons u r =>
      simp only [List.dropLast_cons_cons]
      refine ⟨h.1, fun x hx => h.2 x (List.dropLast_subset _ hx)⟩

/-- What holds of the loop's state. -/
structure Inv (st : List Bytes × Nat) : Prop where
  noslash : ∀ x ∈ st.1, (47 : UInt8) ∉ x
  tidy : Tidy st.1
  up : st.1 = [[46, 46]] → st.2 = 1

theorem inv_step {st : List Bytes × Nat} {sub : Bytes} (h : Inv st) (hs : (47 : UInt8) ∉ sub) : Inv (dotStep st sub) := by
  unfold dotStep
  split
  · exact ⟨h.noslash, h.tidy, fun e => by simp only at e ⊢; rw [e]; rfl⟩
  · split
    · rename_i h1 h2
      split
      · exact ⟨fun x hx => h.noslash x (List.dropLast_subset _ hx), tidy_dropLast h.tidy,
          fun e => by simp only at e ⊢; rw [e]; rfl⟩
      · rename_i h3
        simp at h3
        rw [h3]
        refine ⟨?_, ⟨h1, by simp⟩, fun e => by simp⟩
        intro x hx
        simp at hx
        subst hx
        exact hs
    · rename_i h1 h2
      refine ⟨?_, tidy_append h.tidy h1 (.inr h2), ?_⟩
      · intro x hx
        simp only [List.mem_append, List.mem_singleton] at hx
        rcases hx with hx | rfl
        · exact h.noslash x hx
        · exact hs
      · intro e
        simp only at e
        exfalso
        cases hl : st.1 with
        | nil => rw [hl] at e; simp at e; exact h2 e
        | cons t r => rw [hl] at e; simp at e

theorem inv_fold {l : List Bytes} : ∀ {st : List Bytes × Nat}, Inv st → (∀ x ∈ l, (47 : UInt8) ∉ x) → Inv (l.foldl dotStep st) := by
  induction l with
  | nil => intro st h _; exact h
  | cons s r ih =>
    intro st h hx
    exact ih (inv_step h (hx s (by simp))) (fun x h => hx x (by simp [h]))

/-- The state before the loop. -/
def start (first : Bytes) : List Bytes × Nat :=
  if first = [] then ([], 0)
  else if first ≠ [46] then ([first], if first = [46, 46] then 1 else 0)
  else ([], 0)

theorem inv_start {first : Bytes} (h : (47 : UInt8) ∉ first) : Inv (start first) := by
  unfold start
  split
  · exact ⟨by simp, trivial, by simp⟩
  · split
    · rename_i h1 h2
      refine ⟨by simpa using h, ⟨h2, by simp⟩, ?_⟩
      intro e
      simp at e
      simp [e]
    · exact ⟨by simp, trivial, by simp⟩

/-- The segments of the result. -/
def result (first : Bytes) (st : List Bytes × Nat) : List Bytes :=
  if st.1 = [] then (if first = [] then [[], []] else [[]])
  else (if first = [] then [[]] else []) ++ st.1 ++ (if st.2 > 0 ∧ st.2 = st.1.length then [[]] else [])

theorem joinSegs_append (f : Bool) (a : List Bytes) (ha : a ≠ []) (b : List Bytes) :
    joinSegs f (a ++ b) = joinSegs f a ++ joinSegs true b := by
  induction a generalizing f with
  | nil => exact absurd rfl ha
  | cons s r ih =>
    cases r with
    | nil => simp [joinSegs]
    | cons t r =>
      have := ih true (by simp)
      simp only [List.cons_append] at this ⊢
      rw [joinSegs, this]
      simp [joinSegs]

theorem joinSegs_true (a : List Bytes) : joinSegs true a = joinSegs false ([] :: a) := by
  simp [joinSegs]

/-- What `RemoveDotSegments` does with a path that has a slash. -/
theorem removeDots_eq {input first : Bytes} {rest : List Bytes} (h : segs input = first :: rest) (hr : rest ≠ []) :
    removeDots input = joinSegs false (result first (rest.foldl dotStep (start first))) := by
  obtain ⟨r, t, rfl⟩ := List.exists_cons_of_ne_nil hr
  unfold removeDots
  rw [h]
  simp only [start, decide_eq_true_eq]
  generalize List.foldl dotStep _ (r :: t) = st
  obtain ⟨out, d⟩ := st
  unfold result
  by_cases h1 : out = []
  · subst h1
    by_cases h2 : first = []
    · simp [h2, joinSegs]
      intro h3 h4; omega
    · simp [h2, joinSegs]
      intro h3 h4; omega
  · by_cases h2 : first = []
    · simp only [h1, h2, false_and, if_false, if_true, decide_true, joinSegs_true]
      split
      · rw [joinSegs_append _ _ (by simp)]; simp [joinSegs]
      · simp
    · simp only [h1, h2, false_and, if_false, decide_false]
      split
      · rw [List.nil_append, joinSegs_append _ _ h1]; simp [joinSegs]
      · simp

/-- A list of segments that is left alone. -/
structure Clean (l : List Bytes) : Prop where
  ne : l ≠ []
  noslash : ∀ x ∈ l, (47 : UInt8) ∉ x
  nodot : ∀ x ∈ l, x ≠ [46]
  up : ∀ i, l[i]? = some ([46, 46] : Bytes) → i = 0 ∨ (i = 1 ∧ l[0]? = some ([] : Bytes))
  root : l ≠ [[], [46, 46]]

theorem clean_result {first : Bytes} {st : List Bytes × Nat} (h : Inv st) : Clean (result first st) := by
  obtain ⟨out, d⟩ := st
  have hm := tidy_mem h.tidy
  have hns := h.noslash
  have hup := h.up
  have ht := h.tidy
  simp only at hm hns hup ht
  unfold result
  by_cases h1 : out = []
  · simp only [h1, if_true]
    split
    · refine ⟨by simp, by simp, by simp, ?_, by simp⟩
      intro i hi
      match i with
      | 0 => simp at hi
      | 1 => simp at hi
      | i + 2 => simp at hi
    · refine ⟨by simp, by simp, by simp, ?_, by simp⟩
      intro i hi
      match i with
      | 0 => simp at hi
      | i + 1 => simp at hi
  · simp only [h1, if_false]
    obtain ⟨s, r, rfl⟩ := List.exists_cons_of_ne_nil h1
    have hr := ht.2
    have hno : ∀ (T : List Bytes) (j : Nat), T = [] ∨ T = [[]] → (r ++ T)[j]? = some ([46, 46] : Bytes) → False := by
      intro T j hT hj
      have := List.mem_of_getElem? hj
      simp only [List.mem_append] at this
      rcases this with h | h
      · exact (hr _ h).2 rfl
      · rcases hT with rfl | rfl <;> simp at h
    have hT : ∀ (c : Prop) [Decidable c], (if c then [([] : Bytes)] else []) = [] ∨ (if c then [([] : Bytes)] else []) = [[]] := by
      intro c _; split <;> simp
    refine ⟨by simp, ?_, ?_, ?_, ?_⟩
    · intro x hx
      simp only [List.mem_append] at hx
      rcases hx with (hx | hx) | hx
      · split at hx <;> simp at hx; subst hx; simp
      · exact hns x hx
      · split at hx <;> simp at hx; subst hx; simp
    · intro x hx
      simp only [List.mem_append] at hx
      rcases hx with (hx | hx) | hx
      · split at hx <;> simp at hx; subst hx; simp
      · exact hm x hx
      · split at hx <;> simp at hx; subst hx; simp
    · intro i hi
      by_cases hf : first = []
      · simp only [hf, if_true, List.cons_append, List.nil_append] at hi ⊢
        match i with
        | 0 => exact .inl rfl
        | 1 => exact .inr ⟨rfl, by simp⟩
        | j + 2 => exact (hno _ j (hT _) (by simpa using hi)).elim
      · simp only [hf, if_false, List.cons_append, List.nil_append] at hi ⊢
        match i with
        | 0 => exact .inl rfl
        | j + 1 => exact (hno _ j (hT _) (by simpa using hi)).elim
    · intro e
      by_cases hf : first = []
      · simp only [hf, if_true, List.cons_append, List.nil_append, List.cons.injEq, true_and] at e
        obtain ⟨rfl, e⟩ := e
        have hr0 : r = [] := by cases r <;> simp at e ⊢
        subst hr0
        have := hup rfl
        simp [this] at e
      · simp only [hf, if_false, List.cons_append, List.nil_append, List.cons.injEq] at e
        obtain ⟨rfl, e⟩ := e
        have : [46, 46] ∈ r ++ (if d > 0 ∧ d = (([] : Bytes) :: r).length then [[]] else []) := by rw [e]; simp
        simp only [List.mem_append] at this
        rcases this with h | h
        · exact (hr _ h).2 rfl
        · split at h <;> simp at h

/-- Segments that are not dots are only pushed. -/
theorem fold_plain {l : List Bytes} : ∀ {st : List Bytes × Nat}, (∀ x ∈ l, x ≠ [46] ∧ x ≠ [46, 46]) →
    l.foldl dotStep st = (st.1 ++ l, st.2) := by
  induction l with
  | nil => intro st _; simp
  | cons s r ih =>
    intro st h
    obtain ⟨h1, h2⟩ := h s (by simp)
    rw [List.foldl_cons, ih (fun x hx => h x (by simp [hx]))]
    simp [dotStep, h1, h2]

theorem removeDots_clean {l : List Bytes} (h : Clean l) : removeDots (joinSegs false l) = joinSegs false l := by
  have hs := segs_join h.ne h.noslash
  match l, h, hs with
  | [], h, _ => exact absurd rfl h.ne
  | [s], h, hs =>
    unfold removeDots
    rw [hs]
    simp only
    rw [if_neg]
    simp [joinSegs]
    exact h.nodot s (by simp)
  | first :: s :: rest, h, hs =>
    rw [removeDots_eq hs (by simp)]
    congr 1
    have hrest : ∀ x ∈ rest, x ≠ [46] ∧ x ≠ [46, 46] := by
      intro x hx
      refine ⟨h.nodot x (by simp [hx]), ?_⟩
      rintro rfl
      obtain ⟨j, hj⟩ := List.mem_iff_getElem?.mp hx
      have := h.up (j + 2) (by simpa using hj)
      omega
    have hsd := h.nodot s (by simp)
    by_cases hf : first = []
    · subst hf
      rw [List.foldl_cons, fold_plain hrest]
      by_cases hu : s = [46, 46]
      · subst hu
        have hne : rest ≠ [] := fun e => h.root (by rw [e])
        have : rest.length ≠ 0 := by simpa using hne
        simp [start, dotStep, result]
        exact hne
      · simp [start, dotStep, hsd, hu, result]
    · have hu : s ≠ [46, 46] := by
        rintro rfl
        have := h.up 1 (by simp)
        simp [hf] at this
      rw [fold_plain (by intro x hx; simp only [List.mem_cons] at hx; rcases hx with rfl | hx <;> first | exact ⟨hsd, hu⟩ | exact hrest x hx)]
      have h1 := h.nodot first (by simp)
      simp [start, hf, h1, result]
      intro _
      split <;> simp

theorem removeDots_segs (input : Bytes) : Clean (segs (removeDots input)) := by
  cases hs : segs input with
  | nil => exact absurd hs (segs_ne input)
  | cons first rest =>
    have hns := segs_noslash input
    rw [hs] at hns
    cases rest with
    | nil =>
      have e : joinSegs false (segs input) = input := join_segs input
      rw [hs] at e
      simp [joinSegs] at e
      subst e
      have : removeDots first = if first = [46] then [] else first := by
        unfold removeDots; rw [hs]
      rw [this]
      split
      · refine ⟨segs_ne _, segs_noslash _, by simp [segs], ?_, by simp [segs]⟩
        intro i hi
        match i with
        | 0 => simp [segs] at hi
        | i + 1 => simp [segs] at hi
      · rename_i hne
        rw [hs]
        refine ⟨by simp, hns, by simpa using hne, ?_, by simp⟩
        intro i hi
        match i with
        | 0 => exact .inl rfl
        | i + 1 => simp at hi
    | cons s rest =>
      rw [removeDots_eq hs (by simp)]
      have hc := clean_result (first := first) (inv_fold (l := s :: rest) (inv_start (hns first (by simp)))
        (fun x hx => hns x (by simp [hx])))
      rw [segs_join hc.ne hc.noslash]
      exact hc

/-- C46.  The path that comes out has no "." segment, and ".." only in front. -/
theorem no_dot_segments (input : Bytes) (l : List Bytes) (h : Segments (removeDots input) l) :
    (∀ s ∈ l, s ≠ [46]) ∧ ∀ i, l[i]? = some ([46, 46] : Bytes) → i = 0 ∨ (i = 1 ∧ l[0]? = some ([] : Bytes)) := by
  rw [segments_iff] at h
  subst h
  exact ⟨(removeDots_segs input).nodot, (removeDots_segs input).up⟩

/-- C46.  Removing dot segments again changes nothing. -/
theorem dots_stable (input : Bytes) : removeDots (removeDots input) = removeDots input := by
  have := removeDots_clean (removeDots_segs input)
  rwa [join_segs] at this

end Verif.Uri
