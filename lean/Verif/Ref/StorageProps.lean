import Verif.Ref.EffectProps
/-!
# Memory is freed when it is not needed any more (C95)
-/

namespace Verif.Ref
open Verif

theorem pigeon : ∀ (N : Nat) (g : Nat → Nat), (∀ i, i ≤ N → g i < N) → ∃ i j, i < j ∧ j ≤ N ∧ g i = g j
  | 0, g, h => absurd (h 0 (Nat.le_refl _)) (Nat.not_lt_zero _)
  | N + 1, g, h => by
    by_cases hx : ∃ i, i ≤ N ∧ g i = g (N + 1)
    · obtain ⟨i, h1, h2⟩ := hx
      exact ⟨i, N + 1, by omega, Nat.le_refl _, h2⟩
    · have hx : ∀ i, i ≤ N → g i ≠ g (N + 1) := fun i h1 h2 => hx ⟨i, h1, h2⟩
      obtain ⟨i, j, h1, h2, h3⟩ := pigeon N (fun i => if g i = N then g (N + 1) else g i) (fun i hi => by
        have h1 := h i (by omega)
        have h2 := h (N + 1) (Nat.le_refl _)
        have h3 := hx i hi
        by_cases e : g i = N
        · simp only [if_pos e]; omega
        · simp only [if_neg e]; omega)
      refine ⟨i, j, h1, by omega, ?_⟩
      have hi := hx i (by omega)
      have hj := hx j (by omega)
      split at h3 <;> split at h3 <;> omega

/-- The storage is that of a variable, or contained in it. -/
def Reachable (st : St) (s : Nat) : Prop := ∃ v o b, st.env v = some o ∧ (st.sl o).sto = some b ∧ Below st b s

theorem Below.snoc {st : St} {a b c : Nat} (h : Below st a b) (e : Edge st b c) : Below st a c := by
  induction h with
  | refl => exact .head e (.refl _)
  | head e' _ ih => exact .head e' (ih e)

theorem reachable_of_live {st : St} (h : Ok st) (hn : ¬ Cyc st) {s : Nat} (hs : st.liveS s) : Reachable st s := by
  refine Classical.byContradiction fun hr => hn ?_
  have hi := h.inv
  -- what is not reachable is contained in something that is not reachable
  have hup : ∀ a : { a // st.liveS a ∧ ¬ Reachable st a }, ∃ b : { a // st.liveS a ∧ ¬ Reachable st a }, Edge st b.1 a.1 := by
    rintro ⟨a, h1, h2⟩
    rcases hi.owned a h1 with h3 | ⟨x, h3, h4⟩
    · rw [h.holds] at h3; cases h3
    · cases hh : (st.obj x).home with
      | none =>
        obtain ⟨v, hv⟩ := h.vars x h3 hh
        exact absurd ⟨v, x, a, hv, h4, .refl a⟩ h2
      | some b =>
        obtain ⟨h5, h6⟩ := hi.home x b h3 hh
        refine ⟨⟨b, h5, ?_⟩, h5, x, h6, h4⟩
        rintro ⟨v, o, c, g1, g2, g3⟩
        exact h2 ⟨v, o, c, g1, g2, g3.snoc ⟨h5, x, h6, h4⟩⟩
  let up := fun a => (hup a).choose
  have hupe : ∀ a, Edge st (up a).1 a.1 := fun a => (hup a).choose_spec
  let g : Nat → { a // st.liveS a ∧ ¬ Reachable st a } := fun i => i.repeat up ⟨s, hs, hr⟩
  have hbel : ∀ i n, Below st (g (i + n)).1 (g i).1 := by
    intro i n
    induction n with
    | zero => exact .refl _
    | succ n ih => exact .head (hupe (g (i + n))) ih
  obtain ⟨i, j, h1, _, h3⟩ := pigeon st.nStore (fun i => (g i).1) (fun i _ => hi.storeBound _ (g i).2.1)
  obtain ⟨n, rfl⟩ : ∃ n, j = i + n + 1 := ⟨j - i - 1, by omega⟩
  have h4 : Edge st (g (i + n + 1)).1 (g (i + n)).1 := hupe (g (i + n))
  rw [← h3] at h4
  exact ⟨_, _, h4, hbel i n⟩

/-- Storage never lacks an owner, whatever was done: memory is lost only if a value contains itself. -/
theorem owner_exists {grow : Nat → Nat → Nat} {st : St} (h : Runs grow st) {s : Nat} (hs : st.liveS s) : ∃ x, st.live x ∧ (st.sl x).sto = some s := by
  have hk := runs_ok h
  rcases hk.inv.owned s hs with h1 | h1
  · rw [hk.holds] at h1; cases h1
  · exact h1

/-- **C95.** As long as no value contains itself, exactly the storage is allocated that variables (including references not
resolved yet) have or contain. -/
theorem storage_exact_partial {grow : Nat → Nat → Nat} {st : St} (h : Runs grow st) (hn : ¬ Cyc st) (s : Nat) : st.liveS s ↔ Reachable st s := by
  have hi := (runs_ok h).inv
  refine ⟨reachable_of_live (runs_ok h) hn, ?_⟩
  rintro ⟨v, o, b, h1, h2, h3⟩
  exact h3.alive hi.toInv0 (hi.stoLive o b (hi.env v o h1).1 h2)

/-- Exactly the variables and the elements of such storage exist. -/
theorem objects_exact_partial {grow : Nat → Nat → Nat} {st : St} (h : Runs grow st) (hn : ¬ Cyc st) (x : Nat) :
    st.live x ↔ (∃ v, st.env v = some x) ∨ ∃ s, Reachable st s ∧ x ∈ st.el s := by
  have hk := runs_ok h
  have hi := hk.inv
  constructor
  · intro hx
    cases hh : (st.obj x).home with
    | none => exact .inl (hk.vars x hx hh)
    | some s =>
      obtain ⟨h1, h2⟩ := hi.home x s hx hh
      exact .inr ⟨s, reachable_of_live hk hn h1, h2⟩
  · rintro (⟨v, hv⟩ | ⟨s, h1, h2⟩)
    · exact (hi.env v x hv).1
    · exact (hi.elems s x ((storage_exact_partial h hn s).2 h1) h2).1

/-- **C95.** When all variables are gone, so is everything else. -/
theorem nothing_left_partial {grow : Nat → Nat → Nat} {st : St} (h : Runs grow st) (hn : ¬ Cyc st) (hv : ∀ v, st.env v = none) :
    (∀ x, ¬ st.live x) ∧ ∀ s, ¬ st.liveS s := by
  have hr : ∀ s, ¬ Reachable st s := by rintro s ⟨v, o, _, h1, _⟩; rw [hv v] at h1; cases h1
  refine ⟨fun x hx => ?_, fun s hs => hr s ((storage_exact_partial h hn s).1 hs)⟩
  rcases (objects_exact_partial h hn x).1 hx with ⟨v, h1⟩ | ⟨s, h1, _⟩
  · rw [hv v] at h1; cases h1
  · exact hr s h1

/-- A program with nested containers that ends: two containers are allocated, in the end none. -/
example : ∃ st, Runs double st ∧ ¬ Cyc st ∧ st.liveS 0 ∧ st.liveS 1 ∧ Edge st 0 1 := by
  obtain ⟨st, h1, h2, h3⟩ := after (grow := double) (ops := [.var 0, .put 0 .map, .var 1, .put 1 .list, .set 0 (.key [97]) 1, .del 1])
    (p := fun st => (st.store 0).alive && (st.store 1).alive && (st.store 0).cell == .map [([97], 3)] && st.sl 3 == .list 1) (by decide +kernel)
  simp only [Bool.and_eq_true, beq_iff_eq] at h3
  obtain ⟨⟨⟨h3, h4⟩, h5⟩, h6⟩ := h3
  exact ⟨st, h1, h2, h3, h4, h3, 3, by rw [St.el, h5]; simp [Cell.elems], by rw [h6]; rfl⟩

/-- Its variables go out of scope; both containers had been allocated. -/
example : ∃ st, Runs double st ∧ ¬ Cyc st ∧ (∀ v, st.env v = none) ∧ st.nStore = 2 := by
  obtain ⟨st, h1, h2, h3⟩ := after (grow := double) (ops := [.var 0, .put 0 .map, .var 1, .put 1 .list, .set 0 (.key [97]) 1, .del 1, .del 0])
    (p := fun st => ((List.range st.nObj).all fun x => !(st.obj x).alive) && st.nStore == 2) (by decide +kernel)
  simp only [Bool.and_eq_true, beq_iff_eq, List.all_eq_true, List.mem_range, Bool.not_eq_true'] at h3
  refine ⟨st, h1, h2, fun v => ?_, h3.2⟩
  cases hv : st.env v with
  | none => rfl
  | some o =>
    have hi := (runs_ok h1).inv
    have hl := (hi.env v o hv).1
    rw [St.live, h3.1 o (hi.objBound o hl)] at hl
    cases hl

/-- The unrestricted claim is false: a value that contains itself is never freed. -/
theorem leak_false : (run double [.var 0, .put 0 .map, .set 0 (.key [97]) 0, .del 0] St.init).any (fun r =>
    r.1.env 0 == none && (r.1.store 0).alive && (List.range r.1.nObj).all fun x => !((r.1.obj x).alive && (r.1.obj x).home == none)) = true := by decide +kernel

end Verif.Ref
