import Verif.Val.OpsLemmas
/-!
# Writing and reading paths (C12, C13, C14, C15, C17)
-/

namespace Verif

/-! ## C12: reading back what was written -/

/-- C12: after a successful `SetPath(p, x)`, `GetPath(p)` returns `x`. -/
theorem setPath_getPath {v v' x : Val} {p : VPath} (h : setPath v p x = (v', none)) :
    getPath v' p = .ok x := by
  apply getPath_some
  induction p generalizing v v' with
  | nil => simp only [setPath, Prod.mk.injEq] at h; rw [← h.1]; rfl
  | cons e q ih =>
    rw [setPath] at h
    split at h
    · rename_i c hc
      generalize hr : setPath c q x = r at h
      obtain ⟨c', err⟩ := r
      simp only [Prod.mk.injEq] at h
      obtain ⟨rfl, rfl⟩ := h
      rw [getPath?_cons, getElem?_putElem_self hc]
      exact ih hr
    · rename_i hc
      split at h
      · rename_i hq; subst hq
        rw [getPath?_cons, (setElem_ok h).1]; rfl
      · split at h
        · simp at h
        · rename_i v1 hs
          generalize hr : setPath .null q x = r at h
          obtain ⟨c', err⟩ := r
          simp only [Prod.mk.injEq] at h
          obtain ⟨rfl, rfl⟩ := h
          rw [getPath?_cons, getElem?_putElem_self (setElem_ok hs).1]
          exact ih hr

/-- The same for `HasPath` and for any path below. -/
theorem setPath_below {v v' x : Val} {p : VPath} (h : setPath v p x = (v', none)) (q : VPath) :
    getPath? v' (p ++ q) = getPath? x q := by
  have := setPath_getPath h
  rw [getPath?_append]
  cases hg : getPath? v' p with
  | none => obtain ⟨er, he⟩ := getPath_none hg; rw [this] at he; cases he
  | some y => rw [getPath_some hg] at this; cases this; rfl

example : setPath (.map [([97], .list [.int 1])]) [.key [97], .index 2, .key [98]] (.bool true) =
    (.map [([97], .list [.int 1, .null, .map [([98], .bool true)]])], none) := by rfl

/-! ## C13: writing a path leaves the rest alone -/

theorem diverge_cons {e : PathElem} {p q : VPath} (h : Diverge (e :: p) (e :: q)) : Diverge p q := by
  constructor
  · intro h1; apply h.1; simpa using h1
  · intro h1; apply h.2; simpa using h1

theorem diverge_nil {p : VPath} : ¬ Diverge p [] := fun h => h.2 (List.nil_prefix)

/-- C13: `SetPath(p, x)` does not change what is read at any path `q` that goes a different
way, except that a null padding element may have appeared in a list that `p` extends: then `q`
is an element, missing before, of the list that `p` indexes further on. -/
theorem setPath_frame {v v' x : Val} {p q : VPath} (h : setPath v p x = (v', none))
    (hd : Diverge p q) :
    getPath? v' q = getPath? v q ∨
      (getPath? v q = none ∧ getPath? v' q = some .null ∧
        ∃ pre i j r, p = pre ++ .index i :: r ∧ q = pre ++ [.index j] ∧ j < i) := by
  induction p generalizing v v' q with
  | nil => exact absurd List.nil_prefix hd.1
  | cons e p ih =>
    cases q with
    | nil => exact absurd hd diverge_nil
    | cons f q =>
      have lift : ∀ {w w' : Val}, e = f → (getPath? w' q = getPath? w q ∨
          (getPath? w q = none ∧ getPath? w' q = some .null ∧
            ∃ pre i j r, p = pre ++ .index i :: r ∧ q = pre ++ [.index j] ∧ j < i)) →
          (getPath? w' q = getPath? w q ∨
          (getPath? w q = none ∧ getPath? w' q = some .null ∧
            ∃ pre i j r, e :: p = pre ++ .index i :: r ∧ f :: q = pre ++ [.index j] ∧ j < i)) := by
        intro w w' hef h
        rcases h with h | ⟨h1, h2, pre, i, j, r, h3, h4, h5⟩
        · exact .inl h
        · exact .inr ⟨h1, h2, e :: pre, i, j, r, by simp [h3], by simp [h4, hef], h5⟩
      rw [setPath] at h
      split at h
      · rename_i c hc
        generalize hr : setPath c p x = r at h
        obtain ⟨c', err⟩ := r
        simp only [Prod.mk.injEq] at h
        obtain ⟨rfl, rfl⟩ := h
        rw [getPath?_cons, getPath?_cons]
        by_cases hef : e = f
        · subst hef
          rw [getElem?_putElem_self hc, hc]
          exact lift rfl (ih hr (diverge_cons hd))
        · rw [getElem?_putElem_other (Ne.symm hef)]; exact .inl rfl
      · rename_i hc
        -- the element did not exist
        have other : ∀ {y w : Val}, setElem v e y = (w, none) → f ≠ e →
            getPath? w (f :: q) = getPath? v (f :: q) ∨
            (getPath? v (f :: q) = none ∧ getPath? w (f :: q) = some .null ∧
              ∃ pre i j r, e :: p = pre ++ .index i :: r ∧ f :: q = pre ++ [.index j] ∧ j < i) := by
          intro y w hs hef
          rw [getPath?_cons, getPath?_cons]
          rcases (setElem_ok hs).2.2.2 f hef with h1 | ⟨h1, h2, i, j, rfl, rfl, h5⟩
          · rw [h1]; exact .inl rfl
          · rw [h1, h2]
            cases q with
            | nil => exact .inr ⟨rfl, rfl, [], i, j, p, rfl, rfl, h5⟩
            | cons g q => left; simp [getPath?, getElem?_null]
        split at h
        · rename_i hq; subst hq
          apply other h
          rintro rfl
          exact hd.1 ⟨q, rfl⟩
        · split at h
          · simp at h
          · rename_i v1 hs
            generalize hr : setPath .null p x = r at h
            obtain ⟨c', err⟩ := r
            simp only [Prod.mk.injEq] at h
            obtain ⟨rfl, rfl⟩ := h
            by_cases hef : e = f
            · subst hef
              rw [getPath?_cons, getPath?_cons, getElem?_putElem_self (setElem_ok hs).1, hc]
              have hq : q ≠ [] := by
                rintro rfl
                exact hd.2 ⟨p, rfl⟩
              have := lift (w := .null) rfl (ih hr (diverge_cons hd))
              obtain ⟨g, q', rfl⟩ := List.exists_cons_of_ne_nil hq
              simp only [getPath?, getElem?_null] at this
              simpa [getPath?] using this
            · have := other hs (Ne.symm hef)
              rw [getPath?_cons] at this ⊢
              rw [getElem?_putElem_other (Ne.symm hef)]
              exact this

/-! ## C14: a failed `SetPath` changes nothing -/

theorem setPath_null_succeeds {p : VPath} (hm : NoMaxIndex p) (x : Val) :
    ∃ v', setPath .null p x = (v', none) := by
  induction p with
  | nil => exact ⟨_, rfl⟩
  | cons e q ih =>
    have hme : e ≠ .index 0xFFFFFFFF := fun h => hm (by simp [h])
    have hmq : NoMaxIndex q := fun h => hm (by simp [h])
    rw [setPath, getElem?_null]
    simp only
    split
    · exact setElem_null _ hme
    · obtain ⟨w, hw⟩ := setElem_null (e := e) .null hme
      obtain ⟨c', hc⟩ := ih hmq
      simp only [hw, hc]
      exact ⟨_, rfl⟩

/-- C14, for paths not using the index 0xFFFFFFFF: if `SetPath` throws, the document is
unchanged. -/
theorem setPath_failed_unchanged_partial {v v' x : Val} {p : VPath} {er : Err} (hw : v.WF)
    (hm : NoMaxIndex p) (h : setPath v p x = (v', some er)) : v' = v ∧ er = .unexpectedType := by
  induction p generalizing v v' with
  | nil => simp [setPath] at h
  | cons e q ih =>
    have hme : e ≠ .index 0xFFFFFFFF := fun h => hm (by simp [h])
    have hmq : NoMaxIndex q := fun h => hm (by simp [h])
    rw [setPath] at h
    split at h
    · rename_i c hc
      generalize hr : setPath c q x = r at h
      obtain ⟨c', err⟩ := r
      simp only [Prod.mk.injEq] at h
      obtain ⟨rfl, rfl⟩ := h
      obtain ⟨rfl, rfl⟩ := ih (getElem?_wf hw hc) hmq hr
      exact ⟨putElem_same hw hc, rfl⟩
    · split at h
      · obtain ⟨h1, h2, _⟩ := setElem_err h hme; exact ⟨h1, h2⟩
      · split at h
        · rename_i v1 e1 hs
          simp only [Prod.mk.injEq, Option.some.injEq] at h
          obtain ⟨rfl, rfl⟩ := h
          obtain ⟨h1, h2, _⟩ := setElem_err hs hme; exact ⟨h1, h2⟩
        · obtain ⟨c', hc⟩ := setPath_null_succeeds hmq x
          rw [hc] at h; simp at h

/-- C14 does not hold for the index 0xFFFFFFFF: `i + 1` wraps to 0, so `SetPath` empties the
list and then throws. -/
theorem setPath_failed_unchanged_false :
    setPath (.list [.int 1, .int 2]) [.index 0xFFFFFFFF] (.int 3) = (.list [], some .outOfRange) := by
  rfl

example : setPath (.map [([97], .int 1)]) [.key [97], .key [98]] .null =
    (.map [([97], .int 1)], some .unexpectedType) := by rfl

/-! ## C15: the three ways of reading a path agree -/

/-- C15: `GetPath(p)` throws exactly when `HasPath(p)` is false and `GetPath(p, d)` is `d` then;
when `HasPath(p)` is true all see the same element.  `GetPath` is never undefined behaviour. -/
theorem hasPath_getPath_agree (v : Val) (p : VPath) (d : Val) :
    (hasPath v p = true ∧ ∃ x, getPath v p = .ok x ∧ getPathDef v p d = x) ∨
    (hasPath v p = false ∧ (∃ er, getPath v p = .throw er) ∧ getPathDef v p d = d) := by
  cases h : getPath? v p with
  | none => exact .inr ⟨by simp [hasPath, h], getPath_none h, by simp [getPathDef, h]⟩
  | some x => exact .inl ⟨by simp [hasPath, h], x, getPath_some h, by simp [getPathDef, h]⟩

/-- C15, one element: `Contains(e)`, `Get(e)` and `Get(e, d)` agree with the one-element path. -/
theorem contains_get_agree (v : Val) (e : PathElem) (d : Val) :
    contains v e = hasPath v [e] ∧ getElemC v e = getPath v [e] ∧ getDef v e d = getPathDef v [e] d := by
  have hp : getPath? v [e] = getElem? v e := by
    simp only [getPath?]; cases getElem? v e <;> rfl
  refine ⟨?_, ?_, ?_⟩
  · rw [hasPath, hp]
    cases e with
    | key k => cases v <;> simp [contains, getElem?, getKey?]
    | index i =>
      cases v <;> simp [contains, getElem?, getIndex?]
      rename_i xs
      rcases Nat.lt_or_ge i.toNat xs.length with h | h
      · rw [List.getElem?_eq_getElem h]; simpa using h
      · rw [List.getElem?_eq_none h]; simp; omega
  · simp only [getPath]; cases getElemC v e <;> rfl
  · simp [getPathDef, hp, getDef]

example : hasPath (.map [([97], .list [.int 1])]) [.key [97], .index 0] = true ∧
    hasPath (.map [([97], .list [.int 1])]) [.key [97], .index 1] = false ∧
    getPath (.map [([97], .list [.int 1])]) [.key [97], .index 1] = .throw .outOfRange := by
  exact ⟨rfl, rfl, rfl⟩

/-! ## C17: only null is converted implicitly -/

/-- C17: in a successful `SetPath(pre ++ e :: r, x)`, a value that was already at `pre` was null
or a container of the kind `e` needs, and is a container of that kind afterwards. -/
theorem setPath_only_null_converts {v v' x c : Val} {pre r : VPath} {e : PathElem}
    (h : setPath v (pre ++ e :: r) x = (v', none)) (hc : getPath? v pre = some c) :
    (c.ty = .null ∨ c.ty = e.containerTy) ∧
      ∃ c', getPath? v' pre = some c' ∧ c'.ty = e.containerTy := by
  induction pre generalizing v v' with
  | nil =>
    simp only [getPath?, Option.some.injEq] at hc; subst hc
    simp only [List.nil_append, getPath?, Option.some.injEq, exists_eq_left'] at h ⊢
    rw [setPath] at h
    split at h
    · rename_i c hc
      generalize setPath c r x = w at h
      obtain ⟨c', err⟩ := w
      simp only [Prod.mk.injEq] at h
      obtain ⟨rfl, rfl⟩ := h
      rw [putElem_ty]
      have : v.ty = e.containerTy := by
        cases e <;> cases v <;> simp [getElem?, getKey?, getIndex?] at hc <;> rfl
      exact ⟨.inr this, this⟩
    · split at h
      · exact ⟨(setElem_ok h).2.2.1, (setElem_ok h).2.1⟩
      · split at h
        · simp at h
        · rename_i v1 hs
          generalize setPath .null r x = w at h
          obtain ⟨c', err⟩ := w
          simp only [Prod.mk.injEq] at h
          obtain ⟨rfl, rfl⟩ := h
          rw [putElem_ty]
          exact ⟨(setElem_ok hs).2.2.1, (setElem_ok hs).2.1⟩
  | cons f pre ih =>
    rw [getPath?_cons] at hc
    cases hf : getElem? v f with
    | none => rw [hf] at hc; cases hc
    | some d =>
      rw [hf] at hc
      rw [List.cons_append, setPath, hf] at h
      simp only at h
      generalize hr : setPath d (pre ++ e :: r) x = w at h
      obtain ⟨c', err⟩ := w
      simp only [Prod.mk.injEq] at h
      obtain ⟨rfl, rfl⟩ := h
      rw [getPath?_cons, getElem?_putElem_self hf]
      exact ih hr hc

/-- C17, the other direction: if a value on the way is neither null nor a container of the
needed kind, `SetPath` throws `UnexpectedTypeError` and changes nothing. -/
theorem setPath_wrong_type_throws {v x c : Val} {pre r : VPath} {e : PathElem} (hw : v.WF)
    (hc : getPath? v pre = some c) (h1 : c.ty ≠ .null) (h2 : c.ty ≠ e.containerTy) :
    setPath v (pre ++ e :: r) x = (v, some .unexpectedType) := by
  induction pre generalizing v with
  | nil =>
    simp only [getPath?, Option.some.injEq] at hc; subst hc
    have hg : getElem? v e = none := by
      cases e <;> cases v <;> simp_all [getElem?, getKey?, getIndex?, Val.ty, PathElem.containerTy]
    have hs : ∀ y, setElem v e y = (v, some .unexpectedType) := by
      intro y
      cases e <;> cases v <;> simp_all [setElem, setKey, setIndex, Val.ty, PathElem.containerTy]
    rw [List.nil_append, setPath, hg]
    simp [hs]
  | cons f pre ih =>
    rw [getPath?_cons] at hc
    cases hf : getElem? v f with
    | none => rw [hf] at hc; cases hc
    | some d =>
      rw [hf] at hc
      rw [List.cons_append, setPath, hf]
      simp only [ih (getElem?_wf hw hf) hc, putElem_same hw hf]

/-- C17 for single elements: `Set(i, x)`, `Set(k, x)` succeed only on null or a container of
the right kind, which they leave as such a container; on anything else they throw
`UnexpectedTypeError` and change nothing. -/
theorem setElem_only_null_converts (v : Val) (e : PathElem) (x : Val) :
    (∀ v', setElem v e x = (v', none) →
      v'.ty = e.containerTy ∧ (v.ty = .null ∨ v.ty = e.containerTy)) ∧
    (v.ty ≠ .null → v.ty ≠ e.containerTy → setElem v e x = (v, some .unexpectedType)) := by
  refine ⟨fun v' h => ⟨(setElem_ok h).2.1, (setElem_ok h).2.2.1⟩, fun h1 h2 => ?_⟩
  cases e <;> cases v <;> simp_all [setElem, setKey, setIndex, Val.ty, PathElem.containerTy]

/-- C17 for `Append`: a null becomes a one-element list, a list grows by one at the end,
anything else throws and is unchanged. -/
theorem append_only_null_converts (v x : Val) :
    (v = .null ∧ append v x = (.list [x], none)) ∨
    (∃ xs, v = .list xs ∧ append v x = (.list (xs ++ [x]), none)) ∨
    (v.ty ≠ .null ∧ v.ty ≠ .list ∧ append v x = (v, some .unableToConvert)) := by
  cases v <;> simp [append, Val.ty]

example : (setPath .null [.index 1, .key [97]] (.int 5)).1 =
    .list [.null, .map [([97], .int 5)]] := by rfl
example : getPath? (.map [([97], .str [120])]) [.key [97]] = some (.str [120]) ∧
    (Val.str [120]).ty ≠ .null ∧ (Val.str [120]).ty ≠ (PathElem.index 0).containerTy := by
  exact ⟨rfl, by decide, by decide⟩

end Verif
