import Verif.Path.Model

namespace Verif.PathM

theorem run_append (s : PSt) (a b : Bytes) : run s (a ++ b) = (run s a >>= fun t => run t b) := by
  induction a generalizing s with
  | nil => rfl
  | cons c cs ih =>
    simp only [List.cons_append, run]
    cases step s c <;> simp [ih]

theorem run_esc (s : PSt) (c : UInt8) (he : s.escape = false) (hi : s.index = false)
    (hk : s.key = true) : run s (escChar c) = .ok { s with frag := s.frag ++ [c] } := by
  unfold escChar
  split
  · simp [run, step, he, hi, hk]
  · rename_i h
    simp only [not_or] at h
    obtain ⟨h1, h2, _, h4⟩ := h
    simp [run, step, he, hi, hk, h1, h2, h4]

theorem run_key (s : PSt) (k : Bytes) (he : s.escape = false) (hi : s.index = false)
    (hk : s.key = true) : run s (k.flatMap escChar) = .ok { s with frag := s.frag ++ k } := by
  induction k generalizing s with
  | nil => simp [run]
  | cons c cs ih =>
    simp only [List.flatMap_cons, run_append, run_esc s c he hi hk, Out.bind_ok]
    rw [ih { s with frag := s.frag ++ [c] } he hi hk]; simp

theorem run_index_digits (s : PSt) (ds : Bytes) (hd : ∀ b ∈ ds, isDigit b = true)
    (he : s.escape = false) (hi : s.index = true) :
    run s ds = .ok { s with frag := s.frag ++ ds } := by
  induction ds generalizing s with
  | nil => simp [run]
  | cons c cs ih =>
    have hc : c ≠ 0x5d := by
      have := hd c (by simp)
      rintro rfl; revert this; decide
    simp only [run, step, he, hi, hc, Bool.false_eq_true, if_false, if_true, Out.bind_ok]
    rw [ih _ (fun b hb => hd b (by simp [hb])) (by simp) (by simp)]; simp

/-- A state between two elements: `pend` is the key element still held in `frag`. -/
inductive Between : PSt → VPath → Prop
  | afterIndex (out : VPath) : Between ⟨[], false, false, false, out⟩ out
  | inKey (out : VPath) (k : Bytes) : Between ⟨k, false, false, true, out⟩ (out ++ [.key k])

theorem run_elem (s : PSt) (done : VPath) (h : Between s done) (e : PathElem) :
    ∃ s', run s (elemString e) = .ok s' ∧ Between s' (done ++ [e]) ∧
      (∀ k, e = .key k → s' = ⟨k, false, false, true, done⟩) ∧
      (∀ i, e = .index i → s' = ⟨[], false, false, false, done ++ [e]⟩) := by
  cases e with
  | key k =>
    refine ⟨⟨k, false, false, true, done⟩, ?_, .inKey _ _, by simp, by simp⟩
    cases h with
    | afterIndex =>
      simp [elemString, run, step]
      rw [run_key] <;> simp
    | inKey out k0 =>
      simp [elemString, run, step]
      rw [run_key] <;> simp
  | index i =>
    refine ⟨⟨[], false, false, false, done ++ [.index i]⟩, ?_, .afterIndex _, by simp, by simp⟩
    have hv : extractU64 (natDec i.toNat) = some i.toNat :=
      extractU64_natDec _ (Nat.lt_trans i.toNat_lt (by decide))
    cases h with
    | afterIndex =>
      simp [elemString, run, step]
      rw [run_append, run_index_digits _ _ (natDec_all_digits _) (by rfl) (by rfl)]
      simp [run, step, hv]
    | inKey out k0 =>
      simp [elemString, run, step]
      rw [run_append, run_index_digits _ _ (natDec_all_digits _) (by rfl) (by rfl)]
      simp [run, step, hv]

theorem run_path (s : PSt) (done : VPath) (h : Between s done) (p : VPath) :
    ∃ s', run s (p.flatMap elemString) = .ok s' ∧ Between s' (done ++ p) := by
  induction p generalizing s done with
  | nil => exact ⟨s, by simp [run], by simpa using h⟩
  | cons e es ih =>
    obtain ⟨s1, h1, b1, _⟩ := run_elem s done h e
    obtain ⟨s2, h2, b2⟩ := ih s1 _ b1
    refine ⟨s2, ?_, by simpa using b2⟩
    simp [List.flatMap_cons, run_append, h1, h2]

end Verif.PathM
