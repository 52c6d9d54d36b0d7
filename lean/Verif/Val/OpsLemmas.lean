import Verif.Val.Ops
import Verif.Val.PathSpec
/-! # Lemmas about element operations -/

namespace Verif

theorem AMap.set_same {α} {m : List (Bytes × α)} (hs : AMap.Sorted m) {k : Bytes} {c : α}
    (h : AMap.get m k = some c) : AMap.set m k c = m := by
  apply AMap.ext (AMap.sorted_set hs _ _) hs
  intro k'
  by_cases e : k' = k
  · subst e; rw [AMap.get_set_self, h]
  · rw [AMap.get_set_other _ _ _ _ e]

theorem AMap.erase_none {α} {m : List (Bytes × α)} {k : Bytes}
    (h : AMap.get m k = none) : AMap.erase m k = m := by
  induction m with
  | nil => rfl
  | cons p r ih =>
    obtain ⟨k', v⟩ := p
    simp only [AMap.get] at h
    split at h
    · cases h
    · rename_i hne; simp [AMap.erase, hne, ih h]

theorem uint32_add_one {i : UInt32} (h : i ≠ 0xFFFFFFFF) : (i + 1).toNat = i.toNat + 1 := by
  have h2 : i.toNat ≠ 0xFFFFFFFF := by
    intro e; apply h; apply UInt32.toNat_inj.mp; simpa using e
  have := i.toNat_lt
  rw [UInt32.toNat_add]
  simp only [UInt32.reduceToNat]
  omega

/-! ## `getElem?` -/

theorem getElem?_null (e : PathElem) : getElem? .null e = none := by cases e <;> rfl

theorem getPath?_append (v : Val) (p q : VPath) :
    getPath? v (p ++ q) = (getPath? v p).bind (getPath? · q) := by
  induction p generalizing v with
  | nil => rfl
  | cons e p ih =>
    simp only [List.cons_append, getPath?]
    cases getElem? v e with
    | none => rfl
    | some c => exact ih c

theorem getPath?_cons (v : Val) (e : PathElem) (p : VPath) :
    getPath? v (e :: p) = (getElem? v e).bind (getPath? · p) := by
  simp only [getPath?]; cases getElem? v e <;> rfl

theorem getElem?_wf {v c : Val} {e : PathElem} (hw : v.WF) (h : getElem? v e = some c) : c.WF := by
  cases e with
  | key k =>
    cases v <;> simp [getElem?, getKey?] at h
    rename_i m
    rw [Val.WF, WFMap_iff] at hw
    exact hw.2 _ (AMap.get_mem h)
  | index i =>
    cases v <;> simp [getElem?, getIndex?] at h
    rename_i xs
    rw [Val.WF, WFList_iff] at hw
    exact hw _ (List.mem_of_getElem? h)

theorem getPath?_wf {v c : Val} {p : VPath} (hw : v.WF) (h : getPath? v p = some c) : c.WF := by
  induction p generalizing v with
  | nil => cases h; exact hw
  | cons e p ih =>
    simp only [getPath?] at h
    split at h
    · cases h
    · rename_i c' hc; exact ih (getElem?_wf hw hc) h

/-- The element operations agree: an element is there in the checked reading exactly when it is
in the unchecked one. -/
theorem getElemC_iff {v x : Val} {e : PathElem} : getElemC v e = .ok x ↔ getElem? v e = some x := by
  cases e with
  | key k =>
    cases v <;> simp [getElemC, getElem?, getKeyC, getKey?]
    split <;> simp_all
  | index i =>
    cases v <;> simp [getElemC, getElem?, getIndexC, getIndex?]
    split <;> simp_all

theorem getElemC_none {v : Val} {e : PathElem} (h : getElem? v e = none) :
    ∃ er, getElemC v e = .throw er := by
  cases e with
  | key k =>
    cases v <;> simp_all [getElemC, getElem?, getKeyC, getKey?]
  | index i =>
    cases v <;> simp_all [getElemC, getElem?, getIndexC, getIndex?]

theorem getPath_some {v x : Val} {p : VPath} (h : getPath? v p = some x) : getPath v p = .ok x := by
  induction p generalizing v with
  | nil => cases h; rfl
  | cons e p ih =>
    simp only [getPath?] at h
    split at h
    · cases h
    · rename_i c hc
      simp only [getPath, getElemC_iff.2 hc, Out.bind_ok]
      exact ih h

theorem getPath_none {v : Val} {p : VPath} (h : getPath? v p = none) :
    ∃ er, getPath v p = .throw er := by
  induction p generalizing v with
  | nil => cases h
  | cons e p ih =>
    simp only [getPath?] at h
    split at h
    · rename_i hc
      obtain ⟨er, he⟩ := getElemC_none hc
      exact ⟨er, by simp [getPath, he]⟩
    · rename_i c hc
      obtain ⟨er, he⟩ := ih h
      exact ⟨er, by simp [getPath, getElemC_iff.2 hc, he]⟩

/-! ## `putElem` -/

theorem getElem?_putElem_self {v c c' : Val} {e : PathElem} (h : getElem? v e = some c) :
    getElem? (putElem v e c') e = some c' := by
  cases e with
  | key k =>
    cases v <;> simp [getElem?, getKey?] at h
    simp [putElem, getElem?, getKey?, AMap.get_set_self]
  | index i =>
    cases v <;> simp [getElem?, getIndex?] at h
    rename_i xs
    have hl : i.toNat < xs.length := by
      rcases Nat.lt_or_ge i.toNat xs.length with h' | h'
      · exact h'
      · rw [List.getElem?_eq_none h'] at h; cases h
    simp [putElem, getElem?, getIndex?, hl]

theorem getElem?_putElem_other {v c' : Val} {e e' : PathElem} (h : e' ≠ e) :
    getElem? (putElem v e c') e' = getElem? v e' := by
  cases e with
  | key k =>
    cases v <;> simp [putElem]
    cases e' with
    | key k' =>
      simp only [getElem?, getKey?]
      exact AMap.get_set_other _ _ _ _ (fun e => h (by rw [e]))
    | index i => rfl
  | index i =>
    cases v <;> simp [putElem]
    cases e' with
    | key k' => rfl
    | index j =>
      simp only [getElem?, getIndex?]
      rw [List.getElem?_set_ne]
      intro e
      exact h (by rw [UInt32.toNat_inj.mp e])

theorem putElem_same {v c : Val} {e : PathElem} (hw : v.WF) (h : getElem? v e = some c) :
    putElem v e c = v := by
  cases e with
  | key k =>
    cases v <;> simp [getElem?, getKey?] at h
    rename_i m
    rw [Val.WF] at hw
    simp [putElem, AMap.set_same hw.1 h]
  | index i =>
    cases v <;> simp [getElem?, getIndex?] at h
    rename_i xs
    simp only [putElem, Val.list.injEq]
    apply List.ext_getElem?
    intro j
    rw [List.getElem?_set]
    split
    · rename_i e; subst e
      split
      · exact h.symm
      · rename_i h'; rw [List.getElem?_eq_none (by omega)]
    · rfl

theorem putElem_putElem {v c c' : Val} {e : PathElem} :
    putElem (putElem v e c) e c' = putElem v e c' := by
  cases e with
  | key k =>
    cases v <;> simp [putElem]
    rename_i m
    induction m with
    | nil => simp [AMap.set]
    | cons p r ih =>
      obtain ⟨k', v'⟩ := p
      simp only [AMap.set]
      split
      · simp [AMap.set]
      · rename_i hne
        split
        · simp [AMap.set]
        · rename_i hlt; simp [AMap.set, hne, hlt, ih]
  | index i =>
    cases v <;> simp [putElem]

theorem putElem_ty {v c : Val} {e : PathElem} : (putElem v e c).ty = v.ty := by
  cases e <;> cases v <;> rfl

theorem putElem_wf {v c : Val} {e : PathElem} (hv : v.WF) (hc : c.WF) : (putElem v e c).WF := by
  cases e with
  | key k =>
    cases v <;> simp only [putElem] <;> try exact hv
    rw [Val.WF] at hv ⊢
    refine ⟨AMap.sorted_set hv.1 _ _, ?_⟩
    rw [WFMap_iff]
    intro p hp
    rcases AMap.mem_set hp with rfl | hp
    · exact hc
    · exact WFMap_iff.1 hv.2 p hp
  | index i =>
    cases v <;> simp only [putElem] <;> try exact hv
    rw [Val.WF] at hv ⊢
    rw [WFList_iff] at hv ⊢
    intro x hx
    rcases List.mem_or_eq_of_mem_set hx with h | rfl
    · exact hv _ h
    · exact hc

/-! ## `setElem` -/

/-- `List::SetIndex` on a list with no overflow: the list is extended with nulls up to the
index, and the element stored. -/
theorem setIndexList_ok {xs : List Val} {i : UInt32} {x v' : Val}
    (h : setIndexList xs i x = (v', none)) :
    ∃ ys, v' = .list (ys.set i.toNat x) ∧ i.toNat < ys.length ∧
      ∃ n, ys = xs ++ List.replicate n .null ∧ (i.toNat < xs.length → n = 0) ∧
        (xs.length ≤ i.toNat → xs.length + n = i.toNat + 1) := by
  unfold setIndexList at h
  by_cases h1 : i.toNat < xs.length
  · simp only [h1, if_true, Prod.mk.injEq] at h
    exact ⟨xs, h.1.symm, h1, 0, by simp, fun _ => rfl, fun h => absurd h1 (by omega)⟩
  · by_cases hm : i = 0xFFFFFFFF
    · exfalso; subst hm
      have : (0xFFFFFFFF + 1 : UInt32).toNat = 0 := by decide
      simp only [h1, if_false, this] at h
      simp at h
    · simp only [h1, if_false] at h
      rw [uint32_add_one hm, List.take_of_length_le (by omega)] at h
      split at h
      · rename_i hl
        simp only [Prod.mk.injEq] at h
        exact ⟨_, h.1.symm, hl, _, rfl, fun h => absurd h h1, fun _ => by omega⟩
      · simp at h

theorem setIndexList_succeeds (xs : List Val) {i : UInt32} (hm : i ≠ 0xFFFFFFFF) (x : Val) :
    ∃ v', setIndexList xs i x = (v', none) := by
  simp only [setIndexList]
  rw [uint32_add_one hm, if_pos]
  · exact ⟨_, rfl⟩
  · split
    · assumption
    · simp; omega

theorem getElem?_pad {xs : List Val} {n j : Nat} :
    (xs ++ List.replicate n Val.null)[j]? = xs[j]? ∨
      (xs[j]? = none ∧ (xs ++ List.replicate n Val.null)[j]? = some .null ∧ xs.length ≤ j ∧
        j < xs.length + n) := by
  rcases Nat.lt_or_ge j xs.length with h | h
  · left; rw [List.getElem?_append_left h]
  · rcases Nat.lt_or_ge j (xs.length + n) with h' | h'
    · right
      rw [List.getElem?_append_right h, List.getElem?_eq_none h, List.getElem?_replicate]
      simp; omega
    · left
      rw [List.getElem?_eq_none h, List.getElem?_eq_none (by simp; omega)]

theorem getElem?_lt {xs : List Val} {j : Nat} {c : Val} (h : xs[j]? = some c) : j < xs.length := by
  rcases Nat.lt_or_ge j xs.length with h' | h'
  · exact h'
  · rw [List.getElem?_eq_none h'] at h; cases h

/-- A successful element write stores the value, leaves every other element alone, except for
null padding below an index. -/
theorem setElem_ok {v v' x : Val} {e : PathElem} (h : setElem v e x = (v', none)) :
    getElem? v' e = some x ∧ v'.ty = e.containerTy ∧ (v.ty = .null ∨ v.ty = e.containerTy) ∧
    ∀ e', e' ≠ e → getElem? v' e' = getElem? v e' ∨
      (getElem? v e' = none ∧ getElem? v' e' = some .null ∧
        ∃ i j, e = .index i ∧ e' = .index j ∧ j < i) := by
  cases e with
  | key k =>
    simp only [setElem] at h
    cases v <;> simp [setKey] at h <;> subst h
    · refine ⟨by simp [getElem?, getKey?, AMap.get], rfl, .inl rfl, ?_⟩
      intro e' he
      left
      cases e' with
      | index j => rfl
      | key k' =>
        have : k ≠ k' := fun e => he (by rw [e])
        simp [getElem?, getKey?, AMap.get, this]
    · refine ⟨by simp [getElem?, getKey?, AMap.get_set_self], rfl, .inr rfl, ?_⟩
      intro e' he
      left
      cases e' with
      | index j => rfl
      | key k' =>
        simp only [getElem?, getKey?]
        exact AMap.get_set_other _ _ _ _ (fun e => he (by rw [e]))
  | index i =>
    have key : ∀ xs, (∀ e', getElem? v e' = getElem? (.list xs) e') →
        setIndexList xs i x = (v', none) →
        getElem? v' (.index i) = some x ∧ v'.ty = .list ∧
        ∀ e', e' ≠ .index i → getElem? v' e' = getElem? v e' ∨
          (getElem? v e' = none ∧ getElem? v' e' = some .null ∧
            ∃ i' j, PathElem.index i = .index i' ∧ e' = .index j ∧ j < i') := by
      intro xs hv hs
      obtain ⟨ys, rfl, hl, n, rfl, h0, h1⟩ := setIndexList_ok hs
      refine ⟨by simp only [getElem?, getIndex?]; rw [List.getElem?_set_self hl], rfl, ?_⟩
      intro e' he
      rw [hv e']
      cases e' with
      | key k => left; rfl
      | index j =>
        have hne : i.toNat ≠ j.toNat := fun e => he (by rw [UInt32.toNat_inj.mp e])
        simp only [getElem?, getIndex?]
        rw [List.getElem?_set_ne hne]
        rcases getElem?_pad (xs := xs) (n := n) (j := j.toNat) with h | ⟨h2, h3, h4, h5⟩
        · exact .inl h
        · refine .inr ⟨h2, h3, i, j, rfl, rfl, ?_⟩
          rw [UInt32.lt_iff_toNat_lt]
          rcases Nat.lt_or_ge i.toNat xs.length with h6 | h6
          · have := h0 h6; omega
          · have := h1 h6; omega
    simp only [setElem] at h
    cases v <;> simp [setIndex] at h
    · obtain ⟨a, b, c⟩ := key [] (fun e' => by cases e' <;> simp [getElem?, getIndex?, getKey?]) h
      exact ⟨a, b, .inl rfl, c⟩
    · obtain ⟨a, b, c⟩ := key _ (fun _ => rfl) h
      exact ⟨a, b, .inr rfl, c⟩

/-- An element write that fails leaves the value alone, unless the index is the largest one. -/
theorem setElem_err {v v' x : Val} {e : PathElem} {er : Err} (h : setElem v e x = (v', some er))
    (hm : e ≠ .index 0xFFFFFFFF) :
    v' = v ∧ er = .unexpectedType ∧ v.ty ≠ .null ∧ v.ty ≠ e.containerTy := by
  cases e with
  | key k =>
    simp only [setElem] at h
    cases v <;> simp [setKey] at h <;> simp [h, Val.ty, PathElem.containerTy]
  | index i =>
    have hm' : i ≠ 0xFFFFFFFF := fun e => hm (by rw [e])
    simp only [setElem] at h
    cases v <;> simp only [setIndex] at h
    case null =>
      obtain ⟨w, hw⟩ := setIndexList_succeeds [] hm' x
      rw [hw] at h; cases h
    case list xs =>
      obtain ⟨w, hw⟩ := setIndexList_succeeds xs hm' x
      rw [hw] at h; cases h
    all_goals
      simp only [Prod.mk.injEq, Option.some.injEq] at h
      obtain ⟨rfl, rfl⟩ := h
      simp [Val.ty, PathElem.containerTy]

theorem setElem_null {e : PathElem} (x : Val) (hm : e ≠ .index 0xFFFFFFFF) :
    ∃ v', setElem .null e x = (v', none) := by
  cases e with
  | key k => exact ⟨_, rfl⟩
  | index i => exact setIndexList_succeeds [] (fun e => hm (by rw [e])) x

theorem setIndexList_wf {xs : List Val} {i : UInt32} {x : Val} (hv : WFList xs) (hx : x.WF) :
    (setIndexList xs i x).1.WF := by
  rw [WFList_iff] at hv
  have key : ∀ ys : List Val, (∀ y ∈ ys, y.WF) →
      Val.WF (if i.toNat < ys.length then ((.list (ys.set i.toNat x), none) : Wr)
        else (.list ys, some .outOfRange)).1 := by
    intro ys h
    split
    · rw [Val.WF, WFList_iff]
      intro y hy
      rcases List.mem_or_eq_of_mem_set hy with h' | rfl
      · exact h _ h'
      · exact hx
    · rw [Val.WF, WFList_iff]; exact h
  simp only [setIndexList]
  apply key
  split
  · exact hv
  · intro y hy
    simp only [List.mem_append] at hy
    rcases hy with h | h
    · exact hv _ (List.mem_of_mem_take h)
    · rw [List.eq_of_mem_replicate h]; trivial

theorem setElem_wf {v x : Val} {e : PathElem} (hv : v.WF) (hx : x.WF) : (setElem v e x).1.WF := by
  cases e with
  | key k =>
    cases v <;> simp only [setElem, setKey] <;> try exact hv
    · simp [Val.WF, AMap.Sorted, AMap.above, WFMap, hx]
    · have := putElem_wf (e := .key k) hv hx
      simpa [putElem] using this
  | index i =>
    cases v <;> simp only [setElem, setIndex] <;> try exact hv
    · exact setIndexList_wf trivial hx
    · rw [Val.WF] at hv; exact setIndexList_wf hv hx

end Verif
