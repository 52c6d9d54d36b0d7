import Verif.Ref.Step
/-!
# References do not dangle (C93)
-/

namespace Verif.Ref
open Verif

theorem steps_rel {grow : Nat → Nat → Nat} {st st' : St} {ops : List Op} (h : Ok st) (hs : Steps grow st ops st') : Ok st' := by
  induction hs with
  | nil => exact h
  | ok hn hr _ ih =>
    rename_i op _ _ _ _ _
    have := step_spec h hn grow op
    rw [Tri, hr] at this
    exact ih this.ok
  | thr hn hr _ ih =>
    rename_i op _ _ _ _ _
    have := step_spec h hn grow op
    rw [Tri, hr] at this
    exact ih this.ok

theorem runs_ok {grow : Nat → Nat → Nat} {st : St} (h : Runs grow st) : Ok st := by
  obtain ⟨ops, h⟩ := h
  exact steps_rel init_ok h

theorem tidy_noCyc {st : St} (h : Ok st) (ht : st.tidy = true) : ¬ Cyc st := by
  have he : ∀ a b, Edge st a b → a < b := by
    rintro a b ⟨h1, e, h2, h3⟩
    rw [St.tidy, List.all_eq_true] at ht
    have := ht a (List.mem_range.2 (h.inv.storeBound a h1))
    rw [List.all_eq_true] at this
    have := this e h2
    rw [h3] at this
    exact of_decide_eq_true this
  have hb : ∀ a b, Below st a b → a ≤ b := by
    intro a b h
    induction h with
    | refl => exact Nat.le_refl _
    | head h1 _ ih => have := he _ _ h1; omega
  rintro ⟨a, b, h1, h2⟩
  have := he a b h1
  have := hb b a h2
  omega

theorem go_steps {grow : Nat → Nat → Nat} : ∀ {ops : List Op} {st st' : St}, Ok st → go grow ops st = some st' → Steps grow st ops st'
  | [], st, st', _, h => by cases h; exact .nil _
  | op :: ops, st, st', hk, h => by
    rw [go] at h
    by_cases ht : st.tidy = true
    · rw [if_pos ht] at h
      have hn := tidy_noCyc hk ht
      have hs := step_spec hk hn grow op
      rw [Tri] at hs
      cases hr : step grow op st with
      | ok v st1 => rw [hr] at h hs; exact .ok hn hr (go_steps hs.ok h)
      | thr e st1 => rw [hr] at h hs; exact .thr hn hr (go_steps hs.ok h)
      | ub => rw [hr] at h; cases h
    · rw [if_neg ht] at h; cases h

/-- **C93.** Whatever a program did with variables and references before, the next operation is not undefined, unless a value
contains itself or it is one of the hazards of unresolved references. -/
theorem no_dangling_partial {grow : Nat → Nat → Nat} {st : St} (h : Runs grow st) (hn : ¬ Cyc st) (op : Op) (hz : ¬ Hazard st op) :
    step grow op st ≠ .ub := by
  intro hu
  have := step_spec (runs_ok h) hn grow op
  rw [Tri, hu] at this
  exact hz this

/-- In particular operations on variables and on references that are resolved are never undefined, whether the target of the
references still exists or not. -/
theorem resolved_safe {grow : Nat → Nat → Nat} {st : St} (h : Runs grow st) (hn : ¬ Cyc st) (op : Op)
    (hv : ∀ v o, v ∈ op.vars → st.env v = some o → ¬ IsProxy st o) : step grow op st ≠ .ub := by
  refine no_dangling_partial h hn op ?_
  rintro (⟨v, o, h1, h2, t, path, k, h, h3, _⟩ | ⟨x, y, o, q, rfl, h2, _, h3, _⟩ | ⟨r, x, q, o, rfl, h2, _, ⟨t', p, k, _, _, h3, _⟩ | ⟨_, h3⟩⟩)
  · refine hv v o ?_ h2 ⟨_, _, _, h3⟩
    cases op <;> first | exact h1 | (simp [Op.uses] at h1)
  · exact hv x o (by simp [Op.vars, Op.uses]) h2 h3
  · exact hv r q (by simp [Op.vars]) h2 ⟨_, _, _, h3⟩
  · exact hv r q (by simp [Op.vars]) h2 h3

/-- What the pointers in the memory of a program point to exists: variables, elements of containers, and storage; and a
reference has a flag that tells whether its target exists. -/
theorem pointers_live {grow : Nat → Nat → Nat} {st : St} (h : Runs grow st) :
    (∀ v o, st.env v = some o → st.live o) ∧
    (∀ x s, st.live x → (st.sl x).sto = some s → st.liveS s) ∧
    (∀ s x, st.liveS s → x ∈ st.el s → st.live x) ∧
    (∀ r t, st.live r → (st.sl r).tgt = some t → ∃ k, (st.obj r).rd = some k ∧ (st.valid k = true ↔ st.live t)) := by
  have hi := (runs_ok h).inv
  refine ⟨fun v o hv => (hi.env v o hv).1, hi.stoLive, fun s x hs hx => (hi.elems s x hs hx).1, fun r t hr ht => ?_⟩
  obtain ⟨k, h1, h2, _⟩ := hi.refRd r t hr ht
  exact ⟨k, h1, h2⟩

/-! ## Programs -/

/-- The capacity of a `std::vector` as in libstdc++. -/
def double (size needed : Nat) : Nat := max needed (2 * size)

/-- A list in `v0` with one number, a reference `v2` to it; `v3` is an unresolved reference to element 5. -/
def prog1 : List Op :=
  [.var 0, .put 0 .list, .var 1, .put 1 (.sca (.int 7)), .append 0 1, .at 2 0 (.index 0), .at 3 0 (.index 5)]

/-- The state after a program, if storage stays older than what it contains. -/
theorem after {grow : Nat → Nat → Nat} {ops : List Op} {p : St → Bool} (h : (go grow ops St.init).any (fun st => st.tidy && p st) = true) :
    ∃ st, Runs grow st ∧ ¬ Cyc st ∧ p st = true := by
  cases hg : go grow ops St.init with
  | none => rw [hg] at h; cases h
  | some st =>
    rw [hg] at h
    simp only [Option.any_some, Bool.and_eq_true] at h
    have hr : Runs grow st := ⟨_, go_steps init_ok hg⟩
    exact ⟨st, hr, tidy_noCyc (runs_ok hr) h.1, h.2⟩

example : ∃ st, Runs double st ∧ ¬ Cyc st ∧ (∃ o, st.env 3 = some o ∧ IsProxy st o) ∧ ∃ o, st.env 2 = some o ∧ ∃ t, st.sl o = .ref t ∧ st.live t := by
  obtain ⟨st, h1, h2, h3⟩ := after (grow := double) (ops := prog1) (p := fun st => (st.env 3).map st.sl == some (.proxy 0 [.index 5] (some 0)) &&
    (st.env 2).map st.sl == some (.ref 3) && (st.obj 3).alive) (by decide +kernel)
  simp only [Bool.and_eq_true, beq_iff_eq] at h3
  refine ⟨st, h1, h2, ?_, ?_⟩
  · cases he : st.env 3 with
    | none => rw [he] at h3; simp at h3
    | some o => rw [he] at h3; exact ⟨o, rfl, _, _, _, Option.some.inj h3.1.1⟩
  · cases he : st.env 2 with
    | none => rw [he] at h3; simp at h3
    | some o => rw [he] at h3; exact ⟨o, rfl, 3, Option.some.inj h3.1.2, h3.2⟩

/-- In that state the claim covers operations through the unresolved reference, too. -/
example : ∃ st, Runs double st ∧ ¬ Cyc st ∧ ¬ Hazard st (.put 3 .null) := by
  obtain ⟨st, h1, h2, h3⟩ := after (grow := double) (ops := prog1) (p := fun st => (st.env 3).map st.sl == some (.proxy 0 [.index 5] (some 0)) &&
    (st.obj 0).home == none) (by decide +kernel)
  simp only [Bool.and_eq_true, beq_iff_eq] at h3
  refine ⟨st, h1, h2, ?_⟩
  rintro (⟨v, o, h4, h5, t, path, k, h, h6, _, h7, _⟩ | ⟨_, _, _, _, h4, _⟩ | ⟨_, _, _, _, h4, _⟩)
  · cases List.mem_singleton.1 h4
    rw [h5] at h3
    have h8 := Option.some.inj h3.1
    rw [St.sl, show (st.obj o).slot = st.sl o from rfl, h6] at h8
    cases h8
    rw [h3.2] at h7; cases h7
  · cases h4
  · cases h4

/-- The unrestricted claim is false: `v[5] = v[0]` grows the list after the address of `v[0]` was taken. -/
theorem grow_self_false : run double (prog1 ++ [.assign 3 2]) St.init = none := by decide +kernel

/-- `r.ReassignRef(r)` of an unresolved reference. -/
theorem reassign_self_false : run double [.var 0, .at 1 0 (.key [97]), .reassign 1 1] St.init = none := by decide +kernel

/-- An unresolved reference reassigned to something only it keeps. -/
theorem reassign_kept_false : run double (prog1 ++ [.put 0 .null, .reassign 3 2]) St.init = none := by decide +kernel

/-- A value that contains itself, changed through its only owner. -/
theorem cyclic_false :
    run double [.var 0, .put 0 .map, .set 0 (.key [97]) 0, .at 1 0 (.key [97]), .put 0 .null, .put 1 .null] St.init = none := by decide +kernel

/-- An unresolved reference whose target lies in what only the reference keeps. -/
theorem kept_target_false :
    run double [.var 0, .put 0 .list, .var 1, .put 1 .map, .append 0 1, .at 2 0 (.index 0), .at 3 2 (.key [97]), .put 2 .null,
      .set 1 (.key [98]) 0, .put 0 .null, .put 1 .null, .put 3 (.sca (.int 1))] St.init = none := by decide +kernel

end Verif.Ref
