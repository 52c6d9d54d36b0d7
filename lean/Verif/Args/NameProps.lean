import Verif.Args.Name
/-!
# C121: the name of the program
-/

namespace Verif.Args
open Verif

/-- Specification: `t` is the last component of the path `s`: no slash in it, a slash or nothing before it, only slashes behind it. -/
def LastOf (t s : Bytes) : Prop :=
  t ≠ [] ∧ slash ∉ t ∧ ∃ d k, s = d ++ t ++ List.replicate k slash ∧ (d = [] ∨ d.getLast? = some slash)

theorem nameTake_all {p : UInt8 → Bool} : ∀ l : Bytes, ∀ x ∈ l.takeWhile p, p x = true := by
  intro l
  induction l with
  | nil => simp
  | cons a l ih =>
    rw [List.takeWhile_cons]
    split
    · next h => intro x hx; rcases List.mem_cons.1 hx with rfl | hx
                · exact h
                · exact ih x hx
    · simp

theorem nameDrop_head {p : UInt8 → Bool} : ∀ l : Bytes, ∀ x ∈ (l.dropWhile p).head?, p x = false := by
  intro l
  induction l with
  | nil => simp
  | cons a l ih =>
    rw [List.dropWhile_cons]
    split
    · exact ih
    · next h => intro x hx; simp at hx; subst hx; simpa using h

theorem nameTake_replicate (s : Bytes) : ∃ k, s.takeWhile (· = slash) = List.replicate k slash :=
  ⟨(s.takeWhile (· = slash)).length, List.eq_replicate_of_mem (fun x hx => by simpa using nameTake_all s x hx)⟩

/-- `basename` gives the last component. -/
theorem baseName_last (s : Bytes) (h : ∃ c ∈ s, c ≠ slash) : LastOf (baseName s) s := by
  obtain ⟨c, hc, hne⟩ := h
  unfold baseName
  rw [if_neg (List.ne_nil_of_mem hc)]
  obtain ⟨k, hk⟩ := nameTake_replicate s.reverse
  have e1 := List.takeWhile_append_dropWhile (p := fun x => decide (x = slash)) (l := s.reverse)
  rw [hk] at e1
  have hh := nameDrop_head (p := fun x => decide (x = slash)) s.reverse
  generalize s.reverse.dropWhile (fun x => decide (x = slash)) = r at *
  have hr : r ≠ [] := by
    rintro rfl
    rw [List.append_nil] at e1
    have : c ∈ s.reverse := List.mem_reverse.2 hc
    rw [← e1] at this
    exact hne (List.eq_of_mem_replicate this)
  dsimp only
  rw [if_neg hr]
  have e2 := List.takeWhile_append_dropWhile (p := fun x => decide (x ≠ slash)) (l := r)
  have ht := nameTake_all (p := fun x => decide (x ≠ slash)) r
  have hd := nameDrop_head (p := fun x => decide (x ≠ slash)) r
  have hne2 : r.takeWhile (fun x => decide (x ≠ slash)) ≠ [] := by
    cases r with
    | nil => exact absurd rfl hr
    | cons a r =>
      have := hh a (by simp)
      rw [List.takeWhile_cons, if_pos (by simpa using this)]
      simp
  generalize r.takeWhile (fun x => decide (x ≠ slash)) = t at *
  generalize r.dropWhile (fun x => decide (x ≠ slash)) = u at *
  refine ⟨by simpa using hne2, fun hm => by have := ht slash (by simpa using hm); simp at this, u.reverse, k, ?_, ?_⟩
  · have := congrArg List.reverse e1
    rw [List.reverse_reverse, ← e2] at this
    rw [← this]
    simp
  · cases u with
    | nil => exact .inl rfl
    | cons a u =>
      refine .inr ?_
      have := hd a (by simp)
      simp at this
      simp [this]

/-- The last component is determined. -/
theorem lastOf_unique {t u s : Bytes} (ht : LastOf t s) (hu : LastOf u s) : t = u := by
  obtain ⟨t0, t1, d, k, e, hd⟩ := ht
  obtain ⟨u0, u1, f, l, e', hf⟩ := hu
  -- seen from the end
  have rev : ∀ (d t : Bytes) (k : Nat), (d ++ t ++ List.replicate k slash).reverse = List.replicate k slash ++ (t.reverse ++ d.reverse) := by
    intro d t k; simp
  have drop : ∀ (d t : Bytes) (k : Nat), t ≠ [] → slash ∉ t →
      ((d ++ t ++ List.replicate k slash).reverse).dropWhile (fun x => decide (x = slash)) = t.reverse ++ d.reverse := by
    intro d t k h0 h1
    rw [rev]
    induction k with
    | zero =>
      cases hr : t.reverse with
      | nil => simp at hr; exact absurd hr h0
      | cons a r =>
        have : a ≠ slash := by rintro rfl; exact h1 (List.mem_reverse.1 (by rw [hr]; simp))
        simp [List.dropWhile_cons, this]
    | succ k ih => rw [List.replicate_succ, List.cons_append, List.dropWhile_cons, if_pos (by simp)]; exact ih
  have take : ∀ (d t : Bytes), slash ∉ t → (d = [] ∨ d.getLast? = some slash) →
      (t.reverse ++ d.reverse).takeWhile (fun x => decide (x ≠ slash)) = t.reverse := by
    intro d t h1 hd
    rw [List.takeWhile_append_of_pos (fun a ha => by
      have : a ≠ slash := by rintro rfl; exact h1 (List.mem_reverse.1 ha)
      simpa using this)]
    have : d.reverse.takeWhile (fun x => decide (x ≠ slash)) = [] := by
      rcases hd with rfl | hd
      · rfl
      · rw [← List.head?_reverse] at hd
        cases hr : d.reverse with
        | nil => rfl
        | cons a r => rw [hr] at hd; simp at hd; simp [List.takeWhile_cons, hd]
    rw [this, List.append_nil]
  have h := drop d t k t0 t1
  rw [← e, e', drop f u l u0 u1] at h
  have h2 := take d t t1 hd
  rw [← h, take f u u1 hf] at h2
  have := congrArg List.reverse h2
  simpa using this.symm

/-- **C121, partial.** A name that is given: its last component, or all of it if that is asked for.  No name: the program's name as the shell
says it, or ArgParse.  Missing: that the system is asked (`name_from_system_false`). -/
theorem program_name_partial (sys : Sys) (pname : Bytes) (hn : (0 : UInt8) ∉ pname) :
    ((∃ c ∈ pname, c ≠ slash) → LastOf (programName sys pname true) pname) ∧
    (pname ≠ [] → programName sys pname false = pname) ∧
    (∀ u, sys.underscore = some u → (0 : UInt8) ∉ u → (∃ c ∈ u, c ≠ slash) → ∀ b, LastOf (programName sys [] b) u) ∧
    (sys.underscore = none → ∀ b, programName sys [] b = "ArgParse".toUTF8.toList) := by
  have cs : ∀ s : Bytes, (0 : UInt8) ∉ s → cstr s = s := by
    intro s hs
    unfold cstr
    induction s with
    | nil => rfl
    | cons a s ih =>
      rw [List.takeWhile_cons, if_pos (by simp at hs ⊢; exact fun h => hs.1 h.symm), ih (by simp at hs; exact hs.2)]
  have link : ∀ b, programName sys [] b = match sys.underscore.map cstr with
      | some (c :: cs) => baseName (c :: cs)
      | _ => "ArgParse".toUTF8.toList := by
    intro b
    simp only [programName]
    rw [if_neg (by simp)]
    by_cases h : sys.linkRet = 0
    · rw [if_pos h, h]; rfl
    · rw [if_neg h]; rfl
  refine ⟨?_, ?_, ?_, ?_⟩
  · rintro ⟨c, hc, hne⟩
    have hl : 0 < pname.length := List.length_pos_of_mem hc
    simp only [programName]
    rw [if_pos hl, if_pos trivial, cs _ hn]
    exact baseName_last _ ⟨c, hc, hne⟩
  · intro h
    simp only [programName]
    rw [if_pos (List.length_pos_iff.2 h), if_neg (by simp)]
  · intro u hu h0 hc b
    rw [link, hu, Option.map_some, cs u h0]
    obtain ⟨c, hm, hne⟩ := hc
    cases u with
    | nil => simp at hm
    | cons a u => exact baseName_last _ ⟨c, hm, hne⟩
  · intro h b
    rw [link, h]
    rfl

/-- C121.  A path of nothing but slashes is the root: its name is one slash.  An empty name from the shell counts as none. -/
theorem program_name_root (sys : Sys) (k : Nat) :
    programName sys (List.replicate (k + 1) slash) true = [slash] ∧
    (sys.underscore = some (List.replicate (k + 1) slash) → ∀ b, programName sys [] b = [slash]) ∧
    (sys.underscore = some [] → ∀ b, programName sys [] b = "ArgParse".toUTF8.toList) := by
  have hc : cstr (List.replicate (k + 1) slash) = List.replicate (k + 1) slash := by
    unfold cstr
    rw [List.takeWhile_replicate, if_pos (by decide)]
  have hb : baseName (List.replicate (k + 1) slash) = [slash] := by
    unfold baseName
    rw [if_neg (by simp [List.replicate_succ])]
    have : (List.replicate (k + 1) slash).reverse.dropWhile (fun x => decide (x = slash)) = [] := by
      rw [List.reverse_replicate, List.dropWhile_replicate, if_pos (by decide)]
    dsimp only
    rw [this]; rfl
  have link : ∀ b, programName sys [] b = match sys.underscore.map cstr with
      | some (c :: cs) => baseName (c :: cs)
      | _ => "ArgParse".toUTF8.toList := by
    intro b
    simp only [programName]
    rw [if_neg (by simp)]
    by_cases h : sys.linkRet = 0
    · rw [if_pos h, h]; rfl
    · rw [if_neg h]; rfl
  refine ⟨?_, ?_, ?_⟩
  · simp only [programName]
    rw [if_pos (by simp), if_pos trivial, hc, hb]
  · intro h b
    rw [link, h, Option.map_some, hc, List.replicate_succ]
    dsimp only
    rw [← List.replicate_succ, hb]
  · intro h b
    rw [link, h]; rfl

/-- C121 is false where the name must be found out: what `/proc/self/exe` says is never used, because `readlink` answers the number of bytes
and not zero; whatever it says, the name is the same. -/
theorem name_from_system_false (sys : Sys) (ret : Int) (path : Bytes) (b : Bool) :
    programName { sys with linkRet := ret, link := path } [] b = programName sys [] b := by
  by_cases h : ret = 0 <;> by_cases h2 : sys.linkRet = 0 <;> simp [programName, h, h2, cstr]

/-- /usr/bin/tool// is tool; the path of the program is known to the system, the name is ArgParse. -/
example : programName ⟨9, "/bin/tool".toUTF8.toList, none⟩ "/usr/bin/tool//".toUTF8.toList true = "tool".toUTF8.toList ∧
    programName ⟨9, "/bin/tool".toUTF8.toList, none⟩ [] true = "ArgParse".toUTF8.toList := by decide +kernel

example : LastOf "tool".toUTF8.toList "/bin/tool/".toUTF8.toList := by
  have := baseName_last "/bin/tool/".toUTF8.toList ⟨0x74, by decide +kernel, by decide⟩
  rwa [show baseName "/bin/tool/".toUTF8.toList = "tool".toUTF8.toList by decide +kernel] at this

end Verif.Args
