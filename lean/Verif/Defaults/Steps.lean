import Verif.Defaults.Model
import Verif.Defaults.Spec
import Verif.Payload.Round
/-!
# Filling in defaults as a sequence of writes to places that are missing or null
-/

namespace Verif.Defaults
open Verif Schema

/-! ## One write -/

theorem Same.refl (v : Val) : Same v v := ⟨rfl, fun _ _ => rfl⟩

theorem Same.trans {a b c : Val} (h : Same a b) (h' : Same b c) : Same a c := by
  refine ⟨h'.1.trans h.1, fun h1 h2 => ?_⟩
  rw [h'.2 (by rw [h.1]; exact h1) (by rw [h.1]; exact h2), h.2 h1 h2]

theorem Keeps.refl (v : Val) : Keeps v v := fun _ v h => ⟨v, h, .inr (Same.refl v)⟩

theorem ty_null {v : Val} (h : v.ty = .null) : v = .null := by
  cases v <;> simp [Val.ty] at h; rfl

theorem Keeps.trans {a b c : Val} (h : Keeps a b) (h' : Keeps b c) : Keeps a c := by
  intro q v hv
  obtain ⟨v', h1, h2⟩ := h q v hv
  obtain ⟨v'', h3, h4⟩ := h' q v' h1
  refine ⟨v'', h3, ?_⟩
  rcases h2 with h2 | h2
  · exact .inl h2
  · rcases h4 with rfl | h4
    · exact .inl (ty_null h2.1.symm)
    · exact .inr (h2.trans h4)

/-- A place that is missing or holds a null. -/
def Free (doc : Val) (p : VPath) : Prop := getPath? doc p = none ∨ getPath? doc p = some .null

theorem free_iff {doc : Val} {p : VPath} : missingOrNull (getPath? doc p) = true ↔ Free doc p := by
  unfold Free
  cases h : getPath? doc p with
  | none => simp [missingOrNull]
  | some v => cases v <;> simp [missingOrNull]

theorem getPath?_storeAt {v w x : Val} {p : VPath} (h : getPath? v p = some w) : getPath? (storeAt v p x) p = some x := by
  induction p generalizing v with
  | nil => rfl
  | cons e p ih =>
    rw [getPath?_cons] at h
    cases hc : getElem? v e with
    | none => rw [hc] at h; cases h
    | some c =>
      rw [hc] at h
      simp only [storeAt, hc]
      rw [getPath?_cons, getElem?_putElem_self hc]
      exact ih h

/-- What a write below a value leaves of it. -/
theorem setPath_ty {v v' x : Val} {e : PathElem} {s : VPath} (h : setPath v (e :: s) x = (v', none)) :
    v'.ty = e.containerTy ∧ (v.ty = .null ∨ v.ty = e.containerTy) := by
  rw [setPath] at h
  cases hc : getElem? v e with
  | some c =>
    rw [hc] at h
    simp only [Prod.mk.injEq] at h
    rw [← h.1, putElem_ty]
    have := getElem?_some_ty hc
    exact ⟨this, .inr this⟩
  | none =>
    rw [hc] at h
    dsimp only at h
    by_cases hs : s = []
    · rw [if_pos hs] at h
      have := setElem_ok h
      exact ⟨this.2.1, this.2.2.1⟩
    · rw [if_neg hs] at h
      cases h1 : setElem v e .null with
      | mk w er =>
        cases er with
        | some er => rw [h1] at h; simp at h
        | none =>
          rw [h1] at h
          simp only [Prod.mk.injEq] at h
          have := setElem_ok h1
          rw [← h.1, putElem_ty]
          exact ⟨this.2.1, this.2.2.1⟩

/-- Before and after a write at `p`, above it. -/
theorem setPath_above {v v' x w : Val} {q s : VPath} {e : PathElem} (h : setPath v (q ++ e :: s) x = (v', none))
    (hw : getPath? v q = some w) :
    ∃ w', getPath? v' q = some w' ∧ w'.ty = e.containerTy ∧ (w.ty = .null ∨ w.ty = e.containerTy) := by
  rw [setPath_append _ _ hw] at h
  simp only [Prod.mk.injEq] at h
  refine ⟨_, ?_, setPath_ty (Prod.ext rfl h.2)⟩
  rw [← h.1]
  exact getPath?_storeAt hw

theorem prefix_cases (p q : VPath) : (∃ r, q = p ++ r) ∨ (∃ e s, p = q ++ e :: s) ∨ Diverge p q := by
  by_cases h1 : p <+: q
  · obtain ⟨r, rfl⟩ := h1; exact .inl ⟨r, rfl⟩
  · by_cases h2 : q <+: p
    · obtain ⟨r, rfl⟩ := h2
      cases r with
      | nil => exact absurd (by simp) h1
      | cons e s => exact .inr (.inl ⟨e, s, rfl⟩)
    · exact .inr (.inr ⟨h1, h2⟩)

theorem containerTy_cases (e : PathElem) : e.containerTy = .list ∨ e.containerTy = .map := by
  cases e <;> simp [PathElem.containerTy]

theorem step_keeps {b c d : Val} {p : VPath} (hf : Free b p) (h : setPath b p d = (c, none)) : Keeps b c := by
  intro q v hv
  rcases prefix_cases p q with ⟨r, rfl⟩ | ⟨e, s, rfl⟩ | hd
  · rcases hf with hf | hf
    · rw [getPath?_append, hf] at hv; cases hv
    · rw [getPath?_append, hf] at hv
      cases r with
      | nil =>
        cases hv
        exact ⟨d, by rw [setPath_below h]; rfl, .inl rfl⟩
      | cons e r => simp [getPath?, getElem?_null] at hv
  · obtain ⟨w', h1, h2, h3⟩ := setPath_above h hv
    refine ⟨w', h1, ?_⟩
    rcases h3 with h3 | h3
    · exact .inl (ty_null h3)
    · refine .inr ⟨h2.trans h3.symm, fun h4 h5 => ?_⟩
      rcases containerTy_cases e with h6 | h6
      · exact absurd (h3.trans h6) h4
      · exact absurd (h3.trans h6) h5
  · rcases setPath_frame h hd with h1 | ⟨h1, _⟩
    · exact ⟨v, by rw [h1]; exact hv, .inr (Same.refl v)⟩
    · rw [h1] at hv; cases hv

/-! ## Places that can be written -/

/-- Whatever is written there is stored, and no null on the way is replaced. -/
structure Open (doc : Val) (p : VPath) : Prop where
  stored : ∀ x, (setPath doc p x).2 = none
  way : ∀ q e r, p = q ++ e :: r → getPath? doc q ≠ some .null

/-! ## A sequence of writes -/

/-- Writing defaults to places that are missing or null, one after the other. -/
inductive Steps (D : VPath → Val → Prop) : Val → Val → Prop
  | refl {a} : Steps D a a
  | step {a b c p d} : Steps D a b → Free b p → Open b p → D p d → setPath b p d = (c, none) → Steps D a c

theorem Steps.trans {D : VPath → Val → Prop} {a b c : Val} (h : Steps D a b) (h' : Steps D b c) : Steps D a c := by
  induction h' with
  | refl => exact h
  | step _ h2 ho h3 h4 ih => exact .step ih h2 ho h3 h4

theorem Steps.mono {D D' : VPath → Val → Prop} (hD : ∀ p d, D p d → D' p d) {a b : Val} (h : Steps D a b) : Steps D' a b := by
  induction h with
  | refl => exact .refl
  | step _ h2 ho h3 h4 ih => exact .step ih h2 ho (hD _ _ h3) h4

theorem Steps.keeps {D : VPath → Val → Prop} {a b : Val} (h : Steps D a b) : Keeps a b := by
  induction h with
  | refl => exact Keeps.refl _
  | step _ h2 _ _ h4 ih => exact ih.trans (step_keeps h2 h4)

theorem Steps.wf {D : VPath → Val → Prop} (hD : ∀ p d, D p d → d.WF) {a b : Val} (h : Steps D a b) (ha : a.WF) : b.WF := by
  induction h with
  | refl => exact ha
  | @step b c p d _ _ _ h3 h4 ih =>
    have := Payload.setPath_wf (q := p) ih (hD _ _ h3)
    rw [h4] at this
    exact this

theorem Steps.origin {D : VPath → Val → Prop} {a b : Val} (h : Steps D a b) :
    ∀ q v', getPath? b q = some v' → Origin D a q v' := by
  induction h with
  | refl => exact fun q v' h => .old h (Same.refl v')
  | @step b c p d h1 h2 _ h3 h4 ih =>
    intro q v' hv
    rcases prefix_cases p q with ⟨r, rfl⟩ | ⟨e, s, rfl⟩ | hd
    · rw [setPath_below h4] at hv
      exact .inside h3 rfl hv (Same.refl _)
    · have way : v'.ty = e.containerTy → Origin D a q v' := fun h =>
        .way h3 h
      cases hb : getPath? b q with
      | none =>
        -- created: its type is that of the element below it
        have hw : ∀ (q : VPath) (b c : Val), setPath b (q ++ e :: s) d = (c, none) → getPath? b q = none →
            getPath? c q = some v' → v'.ty = e.containerTy := by
          intro q
          induction q with
          | nil => intro b c _ h; cases h
          | cons f q ihq =>
            intro b c h hn hs
            rw [List.cons_append, setPath] at h
            cases hg : getElem? b f with
            | some x =>
              rw [hg] at h
              simp only [Prod.mk.injEq] at h
              rw [getPath?_cons, hg] at hn
              rw [← h.1, getPath?_cons, getElem?_putElem_self hg] at hs
              exact ihq x _ (Prod.ext rfl h.2) hn hs
            | none =>
              rw [hg] at h
              dsimp only at h
              rw [if_neg (by simp)] at h
              cases h5 : setElem b f .null with
              | mk w er =>
                cases er with
                | some er => rw [h5] at h; simp at h
                | none =>
                  rw [h5] at h
                  simp only [Prod.mk.injEq] at h
                  rw [← h.1, getPath?_cons, getElem?_putElem_self (setElem_ok h5).1] at hs
                  cases q with
                  | nil =>
                    cases hs
                    exact (setPath_ty (Prod.ext rfl h.2)).1
                  | cons f' q' => exact ihq .null _ (Prod.ext rfl h.2) (by simp [getPath?, getElem?_null]) hs
        exact way (hw q b c h4 hb hv)
      | some w =>
        obtain ⟨w', h5, h6, h7⟩ := setPath_above h4 hb
        rw [hv] at h5
        cases h5
        rcases h7 with h7 | h7
        · exact way h6
        · have hs : Same w v' := ⟨h6.trans h7.symm, fun h8 h9 => by
            rcases containerTy_cases e with h10 | h10
            · exact absurd (h7.trans h10) h8
            · exact absurd (h7.trans h10) h9⟩
          cases ih q w hb with
          | old h h' => exact .old h (h'.trans hs)
          | inside h h' h'' h''' => exact .inside h h' h'' (h'''.trans hs)
          | way h h' => exact way h6
          | padding h h' h'' h''' =>
            subst h'''
            exact way h6
    · rcases setPath_frame h4 hd with h5 | ⟨h5, h6, pre, i, j, r, h7, h8, h9⟩
      · rw [h5] at hv; exact ih q v' hv
      · rw [hv] at h6
        cases h6
        subst h7
        exact .padding h3 h8 h9 rfl

/-- A null is replaced only by a default for its place. -/
theorem Steps.null {D : VPath → Val → Prop} {a b : Val} {q : VPath} (h : Steps D a b) (hq : getPath? a q = some .null) :
    ∃ v, getPath? b q = some v ∧ (v = .null ∨ ∃ d, D q d ∧ Same d v) := by
  induction h with
  | refl => exact ⟨_, hq, .inl rfl⟩
  | @step b c p d h1 h2 ho h3 h4 ih =>
    obtain ⟨v, h5, h6⟩ := ih
    by_cases hv : v = .null
    · subst hv
      rcases prefix_cases p q with ⟨r, rfl⟩ | ⟨e, s, rfl⟩ | hd
      · cases r with
        | nil =>
          have := setPath_below h4 []
          exact ⟨d, this, .inr ⟨d, by simpa using h3, Same.refl d⟩⟩
        | cons e r =>
          rw [getPath?_append] at h5
          rcases h2 with h2 | h2 <;> rw [h2] at h5
          · cases h5
          · simp [getPath?, getElem?_null] at h5
      · exact absurd h5 (ho.way q e s rfl)
      · rcases setPath_frame h4 hd with h7 | ⟨h7, _⟩
        · exact ⟨_, h7.trans h5, .inl rfl⟩
        · rw [h7] at h5; cases h5
    · obtain ⟨v', h7, h8⟩ := step_keeps h2 h4 q v h5
      obtain ⟨d', h9, h10⟩ := h6.resolve_left hv
      exact ⟨v', h7, .inr ⟨d', h9, h10.trans (h8.resolve_left hv)⟩⟩

end Verif.Defaults
