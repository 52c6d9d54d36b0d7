import Verif.Path.Lemmas
/-!
# C11: path text round trip
-/

namespace Verif.PathM

/-- C11.  Printing a path and parsing the text gives the path back, for every path whose
last element is not the empty key.  (No bound on the number of elements or key bytes.) -/
theorem parsePath_pathString (p : VPath) (h : p.getLast? ≠ some (.key [])) :
    parsePath (pathString p) = .ok p := by
  cases p with
  | nil => decide
  | cons e es =>
    obtain ⟨s, hs, hb⟩ := run_path .init [] (.afterIndex []) (e :: es)
    simp only [pathString, parsePath, hs, Out.bind_ok]
    generalize hp : e :: es = q at *
    simp only [List.nil_append] at hb
    cases hb with
    | afterIndex => simp
    | inKey out k =>
      have : k ≠ [] := by
        rintro rfl; simp at h
      simp [this]

example : parsePath (pathString [.key [0x2f, 0x5c], .index 7, .key [], .key [0x5b]])
    = .ok [.key [0x2f, 0x5c], .index 7, .key [], .key [0x5b]] :=
  parsePath_pathString _ (by decide)

/-- C11, boundary: a trailing empty key is lost, and it is the only thing lost. -/
theorem parsePath_pathString_trailing_empty (p : VPath) :
    parsePath (pathString (p ++ [.key []])) = .ok p := by
  obtain ⟨s, hs, hb⟩ := run_path .init [] (.afterIndex []) p
  obtain ⟨s', hs', _, hk, _⟩ := run_elem s p (by simpa using hb) (.key [])
  have hne : pathString (p ++ [.key []]) = (p ++ [PathElem.key []]).flatMap elemString := by
    cases p <;> rfl
  rw [hne, List.flatMap_append, parsePath, run_append, hs]
  simp [hs', hk [] rfl]

/-- C11, sharp form: the round trip is exact precisely when the last element is not the
empty key. -/
theorem parsePath_pathString_iff (p : VPath) :
    parsePath (pathString p) = .ok p ↔ p.getLast? ≠ some (.key []) := by
  refine ⟨fun h hl => ?_, parsePath_pathString p⟩
  obtain ⟨q, rfl⟩ := List.getLast?_eq_some_iff.1 hl
  rw [parsePath_pathString_trailing_empty] at h
  have := congrArg (fun o => match o with | Out.ok x => x.length | _ => 0) h
  simp at this

/-- C11 consequence: distinct paths (without a trailing empty key) have distinct texts. -/
theorem pathString_injective (p q : VPath) (hp : p.getLast? ≠ some (.key []))
    (hq : q.getLast? ≠ some (.key [])) (h : pathString p = pathString q) : p = q := by
  have h1 := parsePath_pathString p hp
  rw [h, parsePath_pathString q hq] at h1
  exact (Out.ok.inj h1).symm

example : pathString [.key [0x61], .index 1] ≠ pathString [.key [0x61, 0x5b, 0x31, 0x5d]] := by
  intro h
  exact absurd (pathString_injective _ _ (by decide) (by decide) h) (by decide)

/-- Parsing any text never runs into undefined behaviour: it returns a path or throws the
"not a number" error. -/
theorem parsePath_total (text : Bytes) :
    (∃ p, parsePath text = .ok p) ∨ parsePath text = .throw .runtime := by
  have hrun : ∀ (t : Bytes) (s : PSt), (∃ s', run s t = .ok s') ∨ run s t = .throw .runtime := by
    intro t
    induction t with
    | nil => intro s; exact .inl ⟨s, rfl⟩
    | cons c cs ih =>
      intro s
      have hstep : (∃ s', step s c = .ok s') ∨ step s c = .throw .runtime := by
        unfold step
        repeat' split
        all_goals simp
      rcases hstep with ⟨s', h⟩ | h
      · simp only [run, h, Out.bind_ok]; exact ih s'
      · right; simp [run, h]
  rcases hrun text .init with ⟨s, h⟩ | h
  · left; exact ⟨_, by simp only [parsePath, h, Out.bind_ok]; rfl⟩
  · right; simp [parsePath, h]

example : parsePath [0x5b, 0x78, 0x5d] = .throw .runtime := by decide
example : parsePath [0x61, 0x5b, 0x31, 0x5d] = .ok [.key [0x61], .index 1] := by decide

end Verif.PathM
