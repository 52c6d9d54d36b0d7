import Verif.Heap.Copy
/-!
# C19, C20: deep copies are independent, assignment shares

A state is what a program reaches from scratch (`run init history`); a variable is observed by
looking at every path of it (`obs`): type, scalar value, string, list size, map keys, blob
content.
-/

namespace Verif.Heap
open Verif

/-! ## C19 -/

theorem closedC_of_closed {σ : St} (h : Closed σ) : ClosedC σ.cells :=
  fun a c hc s hs b hb => (h.cell a c hc s hs b hb).1

/-- The copy reads as the original did. -/
theorem copy_reads_same (history : List Step) (w v : Nat) (σ : St)
    (h : copyVar (run init history) w v = some σ) (p : VPath) :
    obs σ w p = obs (run init history) v p := by
  have hcl := closed_run history
  rw [obs_eq_see, obs_eq_see]
  simp only [copyVar] at h
  split at h
  · cases h
  · next cs s heq =>
    cases h
    simp only [St.wr, if_true]
    exact hcopy_see _ _ _ _ _ heq (closedC_of_closed hcl) (fun a ha => (hcl.env v a ha).1) p

/-- The state after `w = v.Copy()`: the cells split in the old ones and those of the copy. -/
theorem copy_good (history : List Step) (w v : Nat) (σ : St) (W : Nat → Bool) (hw : W w = true)
    (h : copyVar (run init history) w v = some σ)
    (hW : ∀ y, W y = true → y ≠ w → (σ.env y).addr = none) (b : Bool) :
    ∃ color, Good W color b σ := by
  have hcl := closed_run history
  generalize run init history = σ0 at *
  simp only [copyVar] at h
  split at h
  · cases h
  · next cs s heq =>
    cases h
    have ⟨hn, hs⟩ := hcopy_new _ _ _ _ _ heq
    have hlen := hn.len
    refine ⟨fun a => if a < σ0.cells.length then false else if a < cs.length then true else b,
      ⟨?_, ?_, ?_⟩⟩
    · intro x a ha
      simp only [St.wr] at ha ⊢
      by_cases hx : x = w
      · subst hx
        rw [if_pos rfl] at ha
        have := hs a ha
        refine ⟨this.2, ?_⟩
        rw [if_neg (by omega), if_pos this.2, hw]
      · rw [if_neg hx] at ha
        have := (hcl.env x a ha).1
        refine ⟨by omega, ?_⟩
        rw [if_pos this]
        cases hWx : W x with
        | false => rfl
        | true =>
          have := hW x hWx hx
          simp only [St.wr, if_neg hx] at this
          rw [this] at ha; cases ha
    · intro a c hc t ht a' ha'
      simp only [St.wr] at hc ⊢
      obtain ⟨ext, rfl, pe⟩ := hn
      by_cases hlt : a < σ0.cells.length
      · rw [List.getElem?_append_left hlt] at hc
        have := (hcl.cell a c hc t ht a' ha').1
        rw [if_pos hlt, if_pos this]
        exact ⟨by omega, rfl⟩
      · have hlt2 := (List.getElem?_eq_some_iff.mp hc).1
        rw [List.getElem?_append_right (by omega)] at hc
        have := pe c (List.mem_of_getElem? hc) t ht a' ha'
        rw [if_neg hlt, if_pos hlt2, if_neg (by omega), if_pos this.2]
        exact ⟨this.2, rfl⟩
    · intro a ha
      simp only [St.wr] at ha
      rw [if_neg (by omega), if_neg (by omega)]

/-- **C19.** After `w = v.Copy()`: let `W` be `w` and any variables that hold no storage yet
(null or scalars).  No program using only variables in `W` changes anything seen through the
variables outside `W`, `v` among them, and no program using only variables outside `W` changes
anything seen through `w`. -/
theorem copy_independent (history : List Step) (w v : Nat) (σ : St)
    (h : copyVar (run init history) w v = some σ)
    (W : Nat → Bool) (hw : W w = true) (hW : ∀ y, W y = true → y ≠ w → (σ.env y).addr = none)
    (prog : List Step) :
    ((∀ st ∈ prog, ∀ x ∈ st.vars, W x = true) →
      ∀ y, W y = false → ∀ p, obs (run σ prog) y p = obs σ y p) ∧
    ((∀ st ∈ prog, ∀ x ∈ st.vars, W x = false) →
      ∀ y, W y = true → ∀ p, obs (run σ prog) y p = obs σ y p) := by
  constructor
  · intro hp y hy p
    obtain ⟨color, hg⟩ := copy_good history w v σ W hw h hW true
    exact obs_frame hg prog hp y (by simp [hy]) p
  · intro hp y hy p
    obtain ⟨color, hg⟩ := copy_good history w v σ W hw h hW false
    exact obs_frame hg prog hp y (by simp [hy]) p

/-! ## C20 -/

/-- A list, map or string. -/
def Slot.container : Slot → Bool
  | .str _ => true
  | .list _ => true
  | .map _ => true
  | _ => false

/-- Modification in place: through any variable, anything but replacing the variable's own
value. -/
def Step.inPlace : Step → Prop
  | .setPath _ p _ => p ≠ []
  | .erasePath _ _ _ => True
  | .append _ _ _ => True
  | .clear _ _ => True
  | _ => False

/-- Variables holding a list, map or string still hold the same one. -/
def EnvKeep (σ σ' : St) : Prop := ∀ z, (σ.env z).container = true → σ'.env z = σ.env z

theorem EnvKeep.refl (σ : St) : EnvKeep σ σ := fun _ _ => rfl

theorem EnvKeep.trans {σ1 σ2 σ3 : St} (h1 : EnvKeep σ1 σ2) (h2 : EnvKeep σ2 σ3) : EnvKeep σ1 σ3 := by
  intro z hz
  rw [h2 z (by rw [h1 z hz]; exact hz), h1 z hz]

theorem keep_of_env {σ σ' : St} (h : σ'.env = σ.env) : EnvKeep σ σ' := fun z _ => by rw [h]

theorem wr_env_nonvar {σ : St} {l : Loc} (s : Slot) (h : ∀ x, l ≠ .var x) :
    (σ.wr l s).env = σ.env := by
  cases l with
  | var x => exact absurd rfl (h x)
  | elem a i => simp only [St.wr]; split <;> rfl
  | entry a i => simp only [St.wr]; split <;> rfl

theorem wr_keep {σ : St} {l : Loc} {t : Slot} (s : Slot) (h : σ.rd l = some t)
    (ht : t.container = false) : EnvKeep σ (σ.wr l s) := by
  cases l with
  | var x =>
    simp only [St.rd, Option.some.injEq] at h
    intro z hz
    simp only [St.wr]
    rw [if_neg]; rintro rfl
    rw [h, ht] at hz; cases hz
  | elem a i => exact keep_of_env (wr_env_nonvar s (by simp))
  | entry a i => exact keep_of_env (wr_env_nonvar s (by simp))

theorem wr_keep_none {σ : St} {l : Loc} (s : Slot) (h : σ.rd l = none) : EnvKeep σ (σ.wr l s) := by
  cases l with
  | var x => simp [St.rd] at h
  | elem a i => exact keep_of_env (wr_env_nonvar s (by simp))
  | entry a i => exact keep_of_env (wr_env_nonvar s (by simp))

theorem cellSetIndex_env (σ : St) (a : Nat) (i : UInt32) (x : Slot) :
    (cellSetIndex σ a i x).1.env = σ.env := by
  simp only [cellSetIndex]
  split
  · split <;> (try split) <;> rfl
  · rfl

theorem cellSetKey_env (σ : St) (a : Nat) (k : Bytes) (x : Slot) :
    (cellSetKey σ a k x).1.env = σ.env := by
  simp only [cellSetKey]
  split <;> rfl

theorem alloc_wr_keep {σ : St} {l : Loc} (h : σ.rd l = some .null) (c : Cell) (s : Slot) :
    EnvKeep σ ((σ.alloc c).1.wr l s) := by
  cases l with
  | var x =>
    simp only [St.rd, Option.some.injEq] at h
    intro z hz
    simp only [St.wr, St.alloc]
    rw [if_neg]; rintro rfl
    rw [h] at hz; cases hz
  | elem a i => exact keep_of_env (by rw [wr_env_nonvar s (by simp)]; rfl)
  | entry a i => exact keep_of_env (by rw [wr_env_nonvar s (by simp)]; rfl)

theorem hsetElem_keep (σ : St) (l : Loc) (e : PathElem) (x : Slot) :
    EnvKeep σ (hsetElem σ l e x).1 := by
  simp only [hsetElem]
  split
  · next i hr => exact (alloc_wr_keep hr _ _).trans (keep_of_env (cellSetIndex_env ..))
  · next i hr => exact (alloc_wr_keep hr _ _).trans (keep_of_env (cellSetKey_env ..))
  · exact keep_of_env (cellSetIndex_env ..)
  · exact keep_of_env (cellSetKey_env ..)
  · exact EnvKeep.refl σ

theorem bindChild_ne_var {σ : St} {l l' : Loc} {e : PathElem}
    (h : (σ.rd l).bind (childLoc σ · e) = some l') (x : Nat) : l' ≠ .var x := by
  rintro rfl
  simp only [Option.bind_eq_some_iff] at h
  obtain ⟨s, _, hc⟩ := h
  exact childLoc_ne_var hc

theorem hsetPath_keep (σ : St) (l : Loc) (p : VPath) (x : Slot)
    (h : p ≠ [] ∨ ∀ y, l ≠ .var y) : EnvKeep σ (hsetPath σ l p x).1 := by
  induction p generalizing σ l with
  | nil =>
    rcases h with h | h
    · exact absurd rfl h
    · exact keep_of_env (wr_env_nonvar x h)
  | cons e q ih =>
    simp only [hsetPath]
    split
    · next l' hb => exact ih σ l' (Or.inr (bindChild_ne_var hb))
    · split
      · exact hsetElem_keep σ l e x
      · have hk := hsetElem_keep σ l e .null
        split
        · next heq => rw [heq] at hk; exact hk
        · next σ' heq =>
          rw [heq] at hk
          split
          · next l' hb => exact hk.trans (ih σ' l' (Or.inr (bindChild_ne_var hb)))
          · exact hk

theorem heraseElem_env (σ : St) (l : Loc) (e : PathElem) : (heraseElem σ l e).1.env = σ.env := by
  simp only [heraseElem]
  split
  · rfl
  · split
    · split
      · split <;> rfl
      · split <;> rfl
    · rfl
  · split <;> rfl
  · rfl

theorem herasePath_env (σ : St) (l : Loc) (p : VPath) (rm : Bool) :
    (herasePath σ l p rm).1.env = σ.env := by
  fun_induction herasePath σ l p rm with
  | case1 => rfl
  | case2 => exact heraseElem_env ..
  | case3 => rfl
  | case4 l e e' q l' hb σ' err heq ih => rw [heq] at ih; exact ih
  | case5 l e e' q l' hb σ' heq hrm hemp ih => rw [heq] at ih; rw [heraseElem_env]; exact ih
  | case6 l e e' q l' hb σ' heq hrm hemp ih => rw [heq] at ih; exact ih
  | case7 l e e' q l' hb σ' heq hrm err hemp ih => rw [heq] at ih; exact ih
  | case8 l e e' q l' hb σ' heq hrm _ _ _ ih => rw [heq] at ih; exact ih
  | case9 l e e' q l' hb σ' heq hrm ih => rw [heq] at ih; exact ih

theorem happend_keep (σ : St) (l : Loc) (x : Slot) : EnvKeep σ (happend σ l x).1 := by
  simp only [happend]
  split
  · next hr => exact alloc_wr_keep hr _ _
  · split
    · exact keep_of_env rfl
    · exact EnvKeep.refl σ
  · exact EnvKeep.refl σ

theorem hclear_keep (σ : St) (l : Loc) : EnvKeep σ (hclear σ l) := by
  simp only [hclear]
  split
  · exact keep_of_env rfl
  · exact keep_of_env rfl
  · exact keep_of_env rfl
  · next h1 h2 h3 =>
    cases hr : σ.rd l with
    | none => exact wr_keep_none _ hr
    | some t =>
      refine wr_keep _ hr ?_
      cases t with
      | str a => exact absurd hr (h1 a)
      | list a => exact absurd hr (h2 a)
      | map a => exact absurd hr (h3 a)
      | null | bool _ | int _ | uint _ | flt _ | blob _ => rfl

theorem step_keep (σ : St) (st : Step) (h : st.inPlace) : EnvKeep σ (step σ st) := by
  cases st with
  | setPath x p y => exact hsetPath_keep σ _ p _ (Or.inl h)
  | erasePath x p rm => exact keep_of_env (herasePath_env ..)
  | append x p y =>
    simp only [step]
    split
    · exact happend_keep σ _ _
    · exact EnvKeep.refl σ
  | clear x p =>
    simp only [step]
    split
    · exact hclear_keep σ _
    · exact EnvKeep.refl σ
  | new _ _ | assign _ _ | copy _ _ | get _ _ _ => exact absurd h (by simp [Step.inPlace])

theorem run_keep (σ : St) (prog : List Step) (h : ∀ st ∈ prog, st.inPlace) :
    EnvKeep σ (run σ prog) := by
  induction prog generalizing σ with
  | nil => exact EnvKeep.refl σ
  | cons st prog ih =>
    exact (step_keep σ st (h st (by simp))).trans (ih _ (fun s hs => h s (by simp [hs])))

/-- What is seen is a list, map or string. -/
def Obs.isContainer : Obs → Bool
  | .str _ => true
  | .list _ => true
  | .map _ => true
  | _ => false

theorem container_of_obs {σ : St} {x : Nat} {o : Obs} (h : obs σ x [] = some o)
    (ho : o.isContainer = true) : (σ.env x).container = true := by
  simp only [obs, hget, Option.bind_some] at h
  generalize σ.env x = s at h
  cases s with
  | str _ | list _ | map _ => rfl
  | null | bool _ | int _ | uint _ | flt _ =>
    simp only [look, Option.some.injEq] at h; subst h; simp [Obs.isContainer] at ho
  | blob a =>
    simp only [look] at h
    split at h
    · cases h; simp [Obs.isContainer] at ho
    · cases h

/-- **C20, shared.** After `w = v`, where `v` holds a list, a map or a string, and after any
program of in-place modifications (through `w`, `v` or any other variable), `w` and `v` show the
same everywhere. -/
theorem assign_shares (history : List Step) (w v : Nat) (o : Obs)
    (hv : obs (run init history) v [] = some o) (ho : o.isContainer = true)
    (prog : List Step) (hp : ∀ st ∈ prog, st.inPlace) (p : VPath) :
    obs (run (step (run init history) (.assign w v)) prog) w p =
      obs (run (step (run init history) (.assign w v)) prog) v p := by
  generalize run init history = σ at *
  have hc := container_of_obs hv ho
  have hk := run_keep (step σ (.assign w v)) prog hp
  have e1 : (step σ (.assign w v)).env w = σ.env v := by simp [step, St.wr]
  have e2 : (step σ (.assign w v)).env v = σ.env v := by
    simp only [step, St.wr]; split <;> rfl
  simp only [obs]
  rw [hk w (by rw [e1]; exact hc), hk v (by rw [e2]; exact hc), e1, e2]

/-- Variables that a program may assign to or modify. -/
def Step.target : Step → Nat
  | .new x _ => x
  | .assign x _ => x
  | .copy x _ => x
  | .get x _ _ => x
  | .setPath x _ _ => x
  | .erasePath x _ _ => x
  | .append x _ _ => x
  | .clear x _ => x

theorem wr_env_other {σ : St} {l : Loc} {y : Nat} (s : Slot) (h : l ≠ .var y) :
    (σ.wr l s).env y = σ.env y := by
  cases l with
  | var x =>
    simp only [St.wr]; rw [if_neg]; rintro rfl; exact h rfl
  | elem a i => rw [wr_env_nonvar s (by simp)]
  | entry a i => rw [wr_env_nonvar s (by simp)]

theorem hsetElem_env_other {σ : St} {l : Loc} {y : Nat} (e : PathElem) (x : Slot) (h : l ≠ .var y) :
    (hsetElem σ l e x).1.env y = σ.env y := by
  simp only [hsetElem]
  split
  · rw [cellSetIndex_env, wr_env_other _ h]; rfl
  · rw [cellSetKey_env, wr_env_other _ h]; rfl
  · rw [cellSetIndex_env]
  · rw [cellSetKey_env]
  · rfl

theorem hsetPath_env_other {σ : St} {l : Loc} {y : Nat} (p : VPath) (x : Slot) (h : l ≠ .var y) :
    (hsetPath σ l p x).1.env y = σ.env y := by
  induction p generalizing σ l with
  | nil => exact wr_env_other x h
  | cons e q ih =>
    simp only [hsetPath]
    split
    · next l' hb => exact ih (bindChild_ne_var hb y)
    · split
      · exact hsetElem_env_other e x h
      · have hk := hsetElem_env_other (σ := σ) e .null h
        split
        · next heq => rw [heq] at hk; exact hk
        · next σ' heq =>
          rw [heq] at hk
          split
          · next l' hb => exact (ih (bindChild_ne_var hb y)).trans hk
          · exact hk

theorem locOf_ne_var {σ : St} {l l' : Loc} {y : Nat} {p : VPath} (h : l ≠ .var y)
    (hl : locOf σ l p = some l') : l' ≠ .var y := by
  induction p generalizing l with
  | nil => simp only [locOf] at hl; cases hl; exact h
  | cons e p ih =>
    simp only [locOf] at hl
    split at hl
    · cases hl
    · next l1 h1 => exact ih (bindChild_ne_var h1 y) hl

theorem step_env_other (σ : St) (st : Step) (y : Nat) (h : st.target ≠ y) :
    (step σ st).env y = σ.env y := by
  have hv : Loc.var st.target ≠ .var y := by intro hh; cases hh; exact h rfl
  cases st with
  | new x v => exact wr_env_other _ hv
  | assign x z => exact wr_env_other _ hv
  | copy x z =>
    simp only [step]
    cases hc : copyVar σ x z with
    | none => rfl
    | some σ' =>
      simp only [copyVar] at hc
      split at hc
      · cases hc
      · cases hc; exact wr_env_other (σ := { σ with cells := _ }) _ hv
  | get x z p =>
    simp only [step]
    split
    · exact wr_env_other _ hv
    · rfl
  | setPath x p z => exact hsetPath_env_other p _ hv
  | erasePath x p rm => simp only [step]; rw [herasePath_env]
  | append x p z =>
    simp only [step]
    split
    · next l hl =>
      have hne := locOf_ne_var hv hl
      simp only [happend]
      split
      · exact wr_env_other _ hne
      · split <;> rfl
      · rfl
    · rfl
  | clear x p =>
    simp only [step]
    split
    · next l hl =>
      have hne := locOf_ne_var hv hl
      simp only [hclear]
      split <;> first | rfl | exact wr_env_other _ hne
    · rfl

theorem run_env_other (σ : St) (prog : List Step) (y : Nat) (h : ∀ st ∈ prog, st.target ≠ y) :
    (run σ prog).env y = σ.env y := by
  induction prog generalizing σ with
  | nil => rfl
  | cons st prog ih =>
    exact (ih _ (fun s hs => h s (by simp [hs]))).trans (step_env_other σ st y (h st (by simp)))

/-- What is seen is null, a boolean or a number. -/
def Obs.isScalar : Obs → Bool
  | .null => true
  | .bool _ => true
  | .int _ => true
  | .uint _ => true
  | .flt _ => true
  | _ => false

theorem scalar_of_obs {σ : St} {x : Nat} {o : Obs} (h : obs σ x [] = some o)
    (ho : o.isScalar = true) : (σ.env x).addr = none := by
  simp only [obs, hget, Option.bind_some] at h
  generalize σ.env x = s at h
  cases s with
  | null | bool _ | int _ | uint _ | flt _ => rfl
  | str a | list a | map a | blob a =>
    simp only [look] at h
    split at h
    · cases h; simp [Obs.isScalar] at ho
    · cases h

/-- **C20, separate.** After `w = v`, where `v` holds null, a boolean or a number, both show the
same, and any program that does not assign to or modify through `v` (whatever it does through `w`)
leaves `v` as it was; likewise for `w`. -/
theorem assign_scalar_separate (history : List Step) (w v : Nat) (o : Obs)
    (hv : obs (run init history) v [] = some o) (ho : o.isScalar = true) (prog : List Step)
    (p : VPath) :
    let σ := step (run init history) (.assign w v)
    obs σ w p = obs σ v p ∧
    ((∀ st ∈ prog, st.target ≠ v) → obs (run σ prog) v p = obs σ v p) ∧
    ((∀ st ∈ prog, st.target ≠ w) → obs (run σ prog) w p = obs σ w p) := by
  generalize run init history = σ0 at *
  have hs := scalar_of_obs hv ho
  have e1 : (step σ0 (.assign w v)).env w = σ0.env v := by simp [step, St.wr]
  have e2 : (step σ0 (.assign w v)).env v = σ0.env v := by
    simp only [step, St.wr]; split <;> rfl
  refine ⟨?_, ?_, ?_⟩
  · simp only [obs]; rw [e1, e2]
  · intro h
    rw [obs_eq_see, obs_eq_see, run_env_other _ _ _ h, e2]
    exact see_scalar hs p
  · intro h
    rw [obs_eq_see, obs_eq_see, run_env_other _ _ _ h, e1]
    exact see_scalar hs p

/-! ## Concrete cases -/

section Examples

/-- `v = {"a": [1, 2]}`, `x = 7`. -/
def demo : List Step :=
  [.new 0 (.map [([97], .list [.int 1, .int 2])]), .new 2 (.int 7), .get 3 0 [.key [97]]]

/-- The copy succeeds, the storage inside `v` is shared with variable 3, and a modification of the
copy is not seen through `v`. -/
example : (copyVar (run init demo) 1 0).isSome = true := by decide +kernel

example :
    let σ := (copyVar (run init demo) 1 0).getD init
    obs (run σ [.setPath 1 [.key [97], .index 0] 4]) 1 [.key [97], .index 0] = some .null ∧
    obs (run σ [.setPath 1 [.key [97], .index 0] 4]) 0 [.key [97], .index 0] = some (.int 1) ∧
    obs (run σ [.setPath 3 [.index 0] 2]) 0 [.key [97], .index 0] = some (.int 7) ∧
    obs (run σ [.setPath 3 [.index 0] 2]) 1 [.key [97], .index 0] = some (.int 1) := by
  decide +kernel

/-- `w = v` shares: appending to `w["a"]` and clearing through `v`. -/
example :
    let σ := step (run init demo) (.assign 1 0)
    obs (run init demo) 0 [] = some (.map [[97]]) ∧
    obs (run σ [.append 1 [.key [97]] 2]) 0 [.key [97], .index 2] = some (.int 7) ∧
    obs (run σ [.clear 0 []]) 1 [] = some (.map []) := by
  decide +kernel

/-- Scalars: `w = x` and then `w.Append(x)` fails, `w = null` leaves `x`. -/
example :
    let σ := step (run init demo) (.assign 1 2)
    obs (run init demo) 2 [] = some (.int 7) ∧
    obs (run σ [.clear 1 []]) 1 [] = some .null ∧ obs (run σ [.clear 1 []]) 2 [] = some (.int 7) := by
  decide +kernel

end Examples

end Verif.Heap
