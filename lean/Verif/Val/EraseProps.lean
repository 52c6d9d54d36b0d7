import Verif.Val.RefProps
/-!
# Erasing paths (C16) and merging (C50)
-/

namespace Verif

/-- Every list in the value has fewer than 2^32 elements. -/
def ListsFit (v : Val) : Prop := ∀ p xs, getPath? v p = some (.list xs) → xs.length < 2 ^ 32

theorem ListsFit.here {v : Val} (h : ListsFit v) : ∀ xs, v = .list xs → xs.length < 2 ^ 32 :=
  fun xs e => h [] xs (by rw [e]; rfl)

theorem ListsFit.child {v c : Val} {e : PathElem} (h : ListsFit v) (hc : getElem? v e = some c) :
    ListsFit c := fun p xs hp => h (e :: p) xs (by simp [getPath?, hc, hp])

theorem getElem?_none_of_ty {v : Val} {e : PathElem} (h : v.ty ≠ e.containerTy) : getElem? v e = none := by
  cases hg : getElem? v e with
  | none => rfl
  | some c => exact absurd (getElem?_some_ty hg) h

/-! ## One element -/

/-- What `Erase(e)` does when it does not throw: a key disappears, the last index disappears, an
inner index becomes null; other elements stay. -/
theorem eraseElem_ok {v v' : Val} {e : PathElem} (hw : v.WF)
    (hf : ∀ xs, v = .list xs → xs.length < 2 ^ 32)
    (h : eraseElem v e = (v', none)) :
    (getElem? v' e = none ∨ getElem? v' e = some .null) ∧
    (∀ k, e = .key k → getElem? v' e = none) ∧
    (∀ e', e' ≠ e → getElem? v' e' = getElem? v e') ∧
    v'.ty = v.ty := by
  cases e with
  | key k =>
    cases v <;> simp [eraseElem, eraseKey] at h <;> subst h
    · refine ⟨.inl rfl, fun _ _ => rfl, fun _ _ => rfl, rfl⟩
    · rw [Val.WF] at hw
      have h1 := AMap.get_erase_self hw.1 k
      refine ⟨.inl h1, fun _ _ => h1, ?_, rfl⟩
      intro e' he
      cases e' with
      | index j => rfl
      | key k' =>
        simp only [getElem?, getKey?]
        exact AMap.get_erase_other _ _ _ (fun e => he (by rw [e]))
  | index i =>
    cases v <;> simp only [eraseElem, eraseIndex, Prod.mk.injEq, reduceCtorEq, and_false] at h
    · obtain ⟨rfl, -⟩ := h
      exact ⟨.inl rfl, (fun _ h => by cases h), fun _ _ => rfl, rfl⟩
    · rename_i xs
      have hl : xs.length < 2 ^ 32 := hf xs rfl
      rw [Nat.mod_eq_of_lt hl] at h
      split at h
      · split at h
        · rename_i h1 h2
          simp only [Prod.mk.injEq] at h
          obtain ⟨rfl, -⟩ := h
          refine ⟨.inr (by simp [getElem?, getIndex?, h2]), (fun _ h => by cases h), ?_, rfl⟩
          intro e' he
          cases e' with
          | key k => rfl
          | index j =>
            simp only [getElem?, getIndex?]
            rw [List.getElem?_set_ne]
            exact fun e => he (by rw [UInt32.toNat_inj.mp e])
        · simp at h
      · rename_i h1
        split at h
        · rename_i h2
          simp only [Prod.mk.injEq] at h
          obtain ⟨rfl, -⟩ := h
          have hi : i.toNat + 1 = xs.length := by
            have : (i + 1).toNat = (i.toNat + 1) % 2 ^ 32 := by rw [UInt32.toNat_add]; rfl
            omega
          refine ⟨.inl ?_, (fun _ h => by cases h), ?_, rfl⟩
          · simp only [getElem?, getIndex?]
            rw [List.getElem?_eq_none]; simp; omega
          · intro e' he
            cases e' with
            | key k => rfl
            | index j =>
              simp only [getElem?, getIndex?]
              have hne : j.toNat ≠ i.toNat := fun e => he (by rw [UInt32.toNat_inj.mp e])
              rcases Nat.lt_or_ge j.toNat (xs.length - 1) with h3 | h3
              · rw [List.getElem?_dropLast, if_pos h3]
              · rw [List.getElem?_eq_none (by simp; omega), List.getElem?_eq_none (by omega)]
        · rename_i h2
          simp only [Prod.mk.injEq] at h
          obtain ⟨rfl, -⟩ := h
          refine ⟨.inl ?_, (fun _ h => by cases h), fun _ _ => rfl, rfl⟩
          simp only [getElem?, getIndex?]
          rw [List.getElem?_eq_none (by omega)]

theorem eraseElem_err {v v' : Val} {e : PathElem} {er : Err} (h : eraseElem v e = (v', some er)) :
    v' = v := by
  cases e with
  | key k => cases v <;> simp [eraseElem, eraseKey] at h <;> exact h.1.symm
  | index i =>
    cases v <;> simp only [eraseElem, eraseIndex, Prod.mk.injEq, reduceCtorEq, and_false] at h
    case list xs =>
      split at h
      · split at h
        · simp at h
        · simp only [Prod.mk.injEq] at h; exact h.1.symm
      · split at h <;> simp at h
    all_goals exact h.1.symm

theorem eraseElem_ty {a b : Val} {e : PathElem} (hab : eraseElem a e = (b, none)) : b.ty = a.ty := by
  cases e with
  | key k => cases a <;> simp [eraseElem, eraseKey] at hab <;> rw [← hab] <;> rfl
  | index i =>
    cases a <;> simp only [eraseElem, eraseIndex, Prod.mk.injEq, reduceCtorEq, and_false] at hab
    · rw [← hab.1]
    · split at hab
      · split at hab
        · simp at hab; rw [← hab]; rfl
        · simp at hab
      · split at hab <;> simp at hab <;> rw [← hab] <;> rfl

/-- Erasing an element that is there does not throw. -/
theorem eraseElem_there {v c : Val} {e : PathElem} (h : getElem? v e = some c) :
    ∃ v', eraseElem v e = (v', none) := by
  cases e with
  | key k =>
    cases v <;> simp [getElem?, getKey?] at h
    exact ⟨_, rfl⟩
  | index i =>
    cases v <;> simp [getElem?, getIndex?] at h
    rename_i xs
    have hl := getElem?_lt h
    simp only [eraseElem, eraseIndex, hl, if_true]
    split
    · exact ⟨_, rfl⟩
    · split <;> exact ⟨_, rfl⟩

theorem empty_true_getElem? {v : Val} (h : empty v = .ok true) (e : PathElem) : getElem? v e = none := by
  cases e <;> cases v <;> simp_all [empty, getElem?, getKey?, getIndex?, AMap.get]

/-! ## `ErasePath`, unfolded -/

/-- One step of `ErasePath` that does not throw. -/
theorem erasePath_step {v v' c : Val} {e e' : PathElem} {q : VPath} {rm : Bool}
    (hc : getElem? v e = some c) (h : erasePath v (e :: e' :: q) rm = (v', none)) :
    ∃ c', erasePath c (e' :: q) rm = (c', none) ∧
      ((v' = putElem v e c' ∧ (rm = true → empty c' = .ok false)) ∨
       (rm = true ∧ empty c' = .ok true ∧ eraseElem (putElem v e c') e = (v', none))) := by
  rw [erasePath, hc] at h
  simp only at h
  cases hr : erasePath c (e' :: q) rm with
  | mk c' er =>
    rw [hr] at h
    cases er with
    | some er => simp at h
    | none =>
      simp only at h
      refine ⟨c', rfl, ?_⟩
      cases rm with
      | false =>
        simp only [Bool.false_eq_true, if_false, Prod.mk.injEq] at h
        exact .inl ⟨h.1.symm, by simp⟩
      | true =>
        simp only [if_true] at h
        cases hm : empty c' with
        | ok b =>
          rw [hm] at h
          cases b with
          | true => exact .inr ⟨rfl, rfl, h⟩
          | false =>
            simp only [Prod.mk.injEq] at h
            exact .inl ⟨h.1.symm, fun _ => rfl⟩
        | throw er => rw [hm] at h; simp at h
        | ub => cases c' <;> simp [empty] at hm

theorem eraseElem_wf {v : Val} {e : PathElem} (hw : v.WF) : (eraseElem v e).1.WF := by
  cases e with
  | key k =>
    cases v <;> simp only [eraseElem, eraseKey] <;> try exact hw
    rw [Val.WF] at hw ⊢
    refine ⟨AMap.sorted_erase hw.1 _, ?_⟩
    rw [WFMap_iff] at hw ⊢
    exact fun p hp => hw.2 p (AMap.mem_erase hp)
  | index i =>
    cases v <;> simp only [eraseElem, eraseIndex] <;> try exact hw
    rename_i xs
    rw [Val.WF, WFList_iff] at hw
    split
    · split
      · rw [Val.WF, WFList_iff]
        intro y hy
        rcases List.mem_or_eq_of_mem_set hy with h | rfl
        · exact hw _ h
        · trivial
      · rw [Val.WF, WFList_iff]; exact hw
    · split
      · rw [Val.WF, WFList_iff]
        exact fun y hy => hw _ (List.dropLast_subset _ hy)
      · rw [Val.WF, WFList_iff]; exact hw

theorem erasePath_wf {v : Val} {p : VPath} {rm : Bool} (hw : v.WF) : (erasePath v p rm).1.WF := by
  fun_induction erasePath v p rm with
  | case1 => exact hw
  | case2 => exact eraseElem_wf hw
  | case3 => exact hw
  | case4 v e e' q c hc c' er hr ih =>
    rw [hr] at ih
    exact putElem_wf hw (ih (getElem?_wf hw hc))
  | case5 v e e' q c hc c' hr v' _ ih =>
    rename_i ih'
    rw [hr] at ih'
    exact eraseElem_wf (putElem_wf hw (ih' (getElem?_wf hw hc)))
  | case6 v e e' q c hc c' hr v' _ ih =>
    rename_i ih'
    rw [hr] at ih'
    exact putElem_wf hw (ih' (getElem?_wf hw hc))
  | case7 v e e' q c hc c' hr v' _ ih =>
    rename_i ih'
    rw [hr] at ih'
    exact putElem_wf hw (ih' (getElem?_wf hw hc))
  | case8 v e e' q c hc c' hr v' _ ih =>
    rename_i ih'
    rw [hr] at ih'
    exact putElem_wf hw (ih' (getElem?_wf hw hc))
  | case9 v e e' q c hc c' hr v' _ ih =>
    rw [hr] at ih
    exact putElem_wf hw (ih (getElem?_wf hw hc))

/-! ## C16 -/

theorem putElem_fit {v c' : Val} {e : PathElem} (hf : ListsFit v) :
    ∀ xs, putElem v e c' = .list xs → xs.length < 2 ^ 32 := by
  intro xs h
  cases e with
  | key k => cases v <;> simp [putElem] at h; exact hf [] _ (by rw [h]; rfl)
  | index i => cases v <;> simp [putElem] at h; have := hf [] _ rfl; rw [← h]; simpa using this

/-- C16: every path that goes a different way reads as before, with or without pruning. -/
theorem erasePath_frame {v v' : Val} {p q : VPath} {rm : Bool} (hw : v.WF) (hf : ListsFit v)
    (h : erasePath v p rm = (v', none)) (hd : Diverge p q) : getPath? v' q = getPath? v q := by
  induction p generalizing v v' q with
  | nil => exact absurd List.nil_prefix hd.1
  | cons e p ih =>
    cases q with
    | nil => exact absurd hd diverge_nil
    | cons f q =>
      cases p with
      | nil =>
        rw [erasePath] at h
        have hef : f ≠ e := by rintro rfl; exact hd.1 ⟨q, rfl⟩
        rw [getPath?_cons, getPath?_cons, (eraseElem_ok hw hf.here h).2.2.1 f hef]
      | cons e' p =>
        cases hc : getElem? v e with
        | none =>
          rw [erasePath, hc] at h
          simp only [Prod.mk.injEq] at h
          rw [h.1]
        | some c =>
          obtain ⟨c', h1, h2⟩ := erasePath_step hc h
          have hcw := getElem?_wf hw hc
          have hcf := hf.child hc
          by_cases hef : e = f
          · subst hef
            have hd' := diverge_cons hd
            have hih := ih hcw hcf h1 hd'
            have hq : q ≠ [] := by rintro rfl; exact diverge_nil hd'
            rw [getPath?_cons v, hc]
            rcases h2 with ⟨rfl, -⟩ | ⟨-, hem, hee⟩
            · rw [getPath?_cons, getElem?_putElem_self hc]; exact hih
            · obtain ⟨g, q, rfl⟩ := List.exists_cons_of_ne_nil hq
              have h0 : getPath? c' (g :: q) = none := by
                simp [getPath?, empty_true_getElem? hem]
              rw [Option.bind_some, ← hih, h0, getPath?_cons]
              have hpw := putElem_wf (e := e) hw (by have := erasePath_wf (p := e' :: p) (rm := rm) hcw; rw [h1] at this; exact this)
              rcases (eraseElem_ok hpw (putElem_fit hf) hee).1 with h3 | h3
              · rw [h3]; rfl
              · rw [h3]; simp [getPath?, getElem?_null]
          · rw [getPath?_cons, getPath?_cons]
            rcases h2 with ⟨rfl, -⟩ | ⟨-, hem, hee⟩
            · rw [getElem?_putElem_other (Ne.symm hef)]
            · have hpw := putElem_wf (e := e) hw (by have := erasePath_wf (p := e' :: p) (rm := rm) hcw; rw [h1] at this; exact this)
              rw [(eraseElem_ok hpw (putElem_fit hf) hee).2.2.1 f (Ne.symm hef),
                getElem?_putElem_other (Ne.symm hef)]

theorem erasePath_child_wf {c c' : Val} {p : VPath} {rm : Bool} {er : Option Err} (hw : c.WF)
    (h : erasePath c p rm = (c', er)) : c'.WF := by
  have := erasePath_wf (p := p) (rm := rm) hw
  rw [h] at this; exact this

/-- The element at a nonempty path that has been erased is gone, or null if the last element of
the path is an index. -/
theorem erasePath_target {v v' : Val} {p : VPath} {e : PathElem} {rm : Bool} (hw : v.WF)
    (hf : ListsFit v) (h : erasePath v (p ++ [e]) rm = (v', none)) :
    getPath? v' (p ++ [e]) = none ∨ ((∀ k, e ≠ .key k) ∧ getPath? v' (p ++ [e]) = some .null) := by
  induction p generalizing v v' with
  | nil =>
    simp only [List.nil_append, erasePath] at h
    have := eraseElem_ok hw hf.here h
    simp only [List.nil_append, getPath?_cons]
    cases e with
    | key k => left; rw [this.2.1 k rfl]; rfl
    | index i =>
      rcases this.1 with h1 | h1
      · left; rw [h1]; rfl
      · right; rw [h1]; exact ⟨by simp, rfl⟩
  | cons f p ih =>
    obtain ⟨e', q, hq⟩ : ∃ e' q, p ++ [e] = e' :: q := by cases p <;> exact ⟨_, _, rfl⟩
    rw [List.cons_append, hq] at h
    rw [List.cons_append]
    cases hc : getElem? v f with
    | none =>
      rw [erasePath, hc] at h
      simp only [Prod.mk.injEq] at h
      left; rw [← h.1, getPath?_cons, hc]; rfl
    | some c =>
      obtain ⟨c', h1, h2⟩ := erasePath_step hc h
      have hcw := getElem?_wf hw hc
      rw [← hq] at h1
      have hih := ih hcw (hf.child hc) h1
      rw [getPath?_cons]
      rcases h2 with ⟨rfl, -⟩ | ⟨-, hem, hee⟩
      · rw [getElem?_putElem_self hc]; exact hih
      · left
        rcases (eraseElem_ok (putElem_wf hw (erasePath_child_wf hcw h1)) (putElem_fit hf) hee).1 with h3 | h3
        · rw [h3]; rfl
        · rw [h3, hq]; simp [getPath?, getElem?_null]

/-- C16: after a successful `ErasePath(p)` where `p` ends in a key, `HasPath(p)` is false. -/
theorem erasePath_key_gone {v v' : Val} {p : VPath} {k : Bytes} {rm : Bool} (hw : v.WF)
    (hf : ListsFit v) (h : erasePath v (p ++ [.key k]) rm = (v', none)) :
    hasPath v' (p ++ [.key k]) = false := by
  rcases erasePath_target hw hf h with h1 | ⟨h1, -⟩
  · simp [hasPath, h1]
  · exact absurd rfl (h1 k)

/-- C16: erasing the last index makes the list one shorter; an inner index becomes null; an
index beyond the end changes nothing. -/
theorem erase_index {xs : List Val} {i : UInt32} (hl : xs.length < 2 ^ 32) :
    (i.toNat + 1 = xs.length → eraseElem (.list xs) (.index i) = (.list xs.dropLast, none)) ∧
    (i.toNat + 1 < xs.length →
      eraseElem (.list xs) (.index i) = (.list (xs.set i.toNat .null), none)) ∧
    (xs.length ≤ i.toNat → (eraseElem (.list xs) (.index i)).1 = .list xs) := by
  have h1 : (i + 1).toNat = (i.toNat + 1) % 2 ^ 32 := by rw [UInt32.toNat_add]; rfl
  have hi := i.toNat_lt
  simp only [eraseElem, eraseIndex, Nat.mod_eq_of_lt hl]
  refine ⟨fun h => ?_, fun h => ?_, fun h => ?_⟩
  · rw [if_neg (by omega), if_pos (by omega)]
  · rw [if_pos (by omega), if_pos (by omega)]
  · split
    · rw [if_neg (by omega)]
    · rw [if_neg (by omega)]

/-- C16, where the erasing happens: let `c` be the value at `pre`.  A successful
`ErasePath(pre ++ r)` does to the document what `ErasePath(r)` does to `c`; with pruning, the
element at `pre` (if it is not the document itself) is in addition removed, or set to null if it
is an inner list element, exactly when that leaves it empty. -/
theorem erasePath_at {v v' c : Val} {pre r : VPath} {rm : Bool} (hw : v.WF) (hf : ListsFit v)
    (hr : r ≠ []) (hc : getPath? v pre = some c) (h : erasePath v (pre ++ r) rm = (v', none)) :
    ∃ c', erasePath c r rm = (c', none) ∧
      (pre = [] ∨ rm = false ∨ empty c' = .ok false → getPath? v' pre = some c') ∧
      (pre ≠ [] → rm = true → empty c' = .ok true →
        getPath? v' pre = none ∨ getPath? v' pre = some .null) ∧
      (pre ≠ [] → rm = true → ∃ b, empty c' = .ok b) := by
  induction pre generalizing v v' with
  | nil =>
    simp only [getPath?, Option.some.injEq] at hc; subst hc
    exact ⟨v', h, fun _ => rfl, fun h => absurd rfl h, fun h => absurd rfl h⟩
  | cons e pre ih =>
    obtain ⟨e', q, hq⟩ : ∃ e' q, pre ++ r = e' :: q := by
      cases hh : pre ++ r with
      | nil => exact absurd (List.append_eq_nil_iff.1 hh).2 hr
      | cons a b => exact ⟨_, _, rfl⟩
    rw [getPath?_cons] at hc
    rw [List.cons_append, hq] at h
    cases hd : getElem? v e with
    | none => rw [hd] at hc; cases hc
    | some d =>
      rw [hd, Option.bind_some] at hc
      obtain ⟨d', h1, h2⟩ := erasePath_step hd h
      have hdw := getElem?_wf hw hd
      rw [← hq] at h1
      obtain ⟨c', h3, h4, h5, h6⟩ := ih hdw (hf.child hd) hc h1
      have hok : eraseElem (putElem v e d') e = (v', none) → _ := fun hee =>
        eraseElem_ok (putElem_wf hw (erasePath_child_wf hdw h1)) (putElem_fit hf) hee
      refine ⟨c', h3, ?_, ?_, ?_⟩
      · intro hcond
        have hd' : getPath? d' pre = some c' := h4 (by
          rcases hcond with h | h | h
          · cases h
          · exact .inr (.inl h)
          · exact .inr (.inr h))
        rw [getPath?_cons]
        rcases h2 with ⟨rfl, -⟩ | ⟨hrm, hem, hee⟩
        · rw [getElem?_putElem_self hd]; exact hd'
        · exfalso
          have hef : empty c' = .ok false := by
            rcases hcond with h | h | h
            · cases h
            · rw [hrm] at h; cases h
            · exact h
          cases pre with
          | nil => simp only [getPath?, Option.some.injEq] at hd'; rw [hd', hef] at hem; cases hem
          | cons g pre => simp [getPath?, empty_true_getElem? hem] at hd'
      · intro _ hrm hem
        rw [getPath?_cons]
        cases pre with
        | nil =>
          have : d' = c' := by
            have := h4 (.inl rfl); simpa [getPath?] using this
          subst this
          rcases h2 with ⟨rfl, h7⟩ | ⟨-, -, hee⟩
          · rw [h7 hrm] at hem; cases hem
          · rcases (hok hee).1 with h8 | h8
            · rw [h8]; exact .inl rfl
            · rw [h8]; exact .inr rfl
        | cons g pre =>
          rcases h2 with ⟨rfl, h7⟩ | ⟨-, -, hee⟩
          · rw [getElem?_putElem_self hd]; exact h5 (by simp) hrm hem
          · rcases (hok hee).1 with h8 | h8
            · rw [h8]; exact .inl rfl
            · rw [h8]; left; simp [getPath?, getElem?_null]
      · intro _ hrm
        cases pre with
        | nil =>
          have : d' = c' := by
            have := h4 (.inl rfl); simpa [getPath?] using this
          subst this
          rcases h2 with ⟨rfl, h7⟩ | ⟨-, hem, hee⟩
          · exact ⟨_, h7 hrm⟩
          · exact ⟨_, hem⟩
        | cons g pre => exact h6 (by simp) hrm

/-- C16, pruning: an ancestor that still has an element after the erasure survives, with its
remaining content and its type. -/
theorem erasePath_prune_keeps_partial {v v' c : Val} {pre r : VPath} {f : PathElem} {x : Val}
    (hw : v.WF) (hf : ListsFit v) (hr : r ≠ []) (hc : getPath? v pre = some c)
    (hx : getElem? c f = some x) (hfr : ∀ q, r ≠ f :: q)
    (h : erasePath v (pre ++ r) true = (v', none)) :
    ∃ c', getPath? v' pre = some c' ∧ getElem? c' f = some x := by
  obtain ⟨c', h1, h2, h3, h4⟩ := erasePath_at hw hf hr hc h
  have hcw := getPath?_wf hw hc
  have hcf : ListsFit c := fun p xs hp => hf (pre ++ p) xs (by rw [getPath?_append, hc]; exact hp)
  have hd : Diverge r [f] := by
    constructor
    · intro hp
      rcases List.prefix_cons_iff.1 hp with h | ⟨t, h, h'⟩
      · exact hr h
      · exact hfr _ h
    · rintro ⟨t, ht⟩
      exact hfr t ht.symm
  have hx' : getElem? c' f = some x := by
    have := erasePath_frame hcw hcf h1 hd
    simp only [getPath?_cons, hx] at this
    cases hg : getElem? c' f with
    | none => rw [hg] at this; simp [getPath?] at this
    | some y => rw [hg] at this; simpa [getPath?] using this
  refine ⟨c', h2 ?_, hx'⟩
  by_cases hp : pre = []
  · exact .inl hp
  · obtain ⟨b, hb⟩ := h4 hp rfl
    cases b with
    | false => exact .inr (.inr hb)
    | true => rw [empty_true_getElem? hb] at hx'; cases hx'

/-- C16 is false as stated for pruning: an ancestor that was null, and did not become empty,
is removed as well; here nothing was there to erase. -/
theorem erasePath_prune_false :
    hasPath (.map [([97], .null)]) [.key [97], .key [98]] = false ∧
    erasePath (.map [([97], .null)]) [.key [97], .key [98]] true = (.map [], none) := by
  exact ⟨rfl, rfl⟩

theorem erasePath_scalar {c : Val} {p : VPath} {rm : Bool} (h : ∀ e, getElem? c e = none)
    (hl : c.ty ≠ .list) (hm : c.ty ≠ .map) : (erasePath c p rm).1 = c := by
  match p with
  | [] => rfl
  | [e] =>
    rw [erasePath]
    cases e <;> cases c <;> simp_all [eraseElem, eraseKey, eraseIndex, Val.ty]
  | e :: e' :: q => rw [erasePath, h e]

/-- A failed `ErasePath` changes nothing. -/
theorem erasePath_failed_unchanged {v v' : Val} {p : VPath} {rm : Bool} {er : Err} (hw : v.WF)
    (h : erasePath v p rm = (v', some er)) : v' = v := by
  induction p generalizing v v' er with
  | nil => simp [erasePath] at h
  | cons e p ih =>
    cases p with
    | nil => exact eraseElem_err h
    | cons e' q =>
      rw [erasePath] at h
      cases hc : getElem? v e with
      | none => rw [hc] at h; simp at h
      | some c =>
        rw [hc] at h
        simp only at h
        cases hr : erasePath c (e' :: q) rm with
        | mk c' er' =>
          rw [hr] at h
          cases er' with
          | some er' =>
            simp only [Prod.mk.injEq] at h
            rw [ih (getElem?_wf hw hc) hr, putElem_same hw hc] at h
            exact h.1.symm
          | none =>
            simp only at h
            cases rm with
            | false => simp at h
            | true =>
              simp only [if_true] at h
              cases hem : empty c' with
              | ok b =>
                rw [hem] at h
                cases b with
                | true =>
                  obtain ⟨w, hw'⟩ := eraseElem_there (getElem?_putElem_self (c' := c') hc)
                  simp only [hw'] at h; simp at h
                | false => simp at h
              | ub => cases c' <;> simp [empty] at hem
              | throw er' =>
                rw [hem] at h
                simp only [Prod.mk.injEq] at h
                -- the element on the path is a scalar, and nothing was erased below it
                have hcc : c' = c := by
                  by_cases hl : c.ty = .list ∨ c.ty = .map
                  · exfalso
                    have : c'.ty = c.ty := by
                      cases q with
                      | nil =>
                        simp only [erasePath] at hr
                        exact eraseElem_ty hr
                      | cons e2 q =>
                        cases hc2 : getElem? c e' with
                        | none => rw [erasePath, hc2] at hr; simp at hr; rw [hr]
                        | some c2 =>
                          obtain ⟨w, -, h2⟩ := erasePath_step hc2 hr
                          rcases h2 with ⟨rfl, -⟩ | ⟨-, -, hee⟩
                          · rw [putElem_ty]
                          · rw [eraseElem_ty hee, putElem_ty]
                    rcases hl with hl | hl <;> rw [hl] at this <;> cases c' <;>
                      simp [Val.ty, empty] at this hem
                  · simp only [not_or] at hl
                    have hn : ∀ f, getElem? c f = none := fun f => by
                      apply getElem?_none_of_ty
                      cases f
                      · exact hl.2
                      · exact hl.1
                    have := erasePath_scalar (p := e' :: q) (rm := true) hn hl.1 hl.2
                    rw [hr] at this; exact this
                rw [hcc, putElem_same hw hc] at h
                exact h.1.symm

/-- The hypotheses are met: pruning removes the emptied map and keeps its sibling. -/
example : erasePath (.map [([97], .map [([98], .int 1)]), ([99], .int 2)])
    [.key [97], .key [98]] true = (.map [([99], .int 2)], none) := by rfl
example : erasePath (.map [([97], .map [([98], .int 1), ([100], .int 3)]), ([99], .int 2)])
    [.key [97], .key [98]] true =
    (.map [([97], .map [([100], .int 3)]), ([99], .int 2)], none) := by rfl

/-! ## C50: merging -/

theorem mergeFrom_spec {m ms : List (Bytes × Val)} (hs : AMap.Sorted ms) :
    ∃ m', mergeFrom (.map m) ms = (.map m', none) ∧
      ∀ k, AMap.get m' k = (AMap.get ms k).or (AMap.get m k) := by
  induction ms generalizing m with
  | nil => exact ⟨m, rfl, fun k => by simp [AMap.get]⟩
  | cons p ms ih =>
    obtain ⟨k0, x⟩ := p
    obtain ⟨m', h1, h2⟩ := ih (m := AMap.set m k0 x) hs.2
    refine ⟨m', by simp only [mergeFrom, setKey]; exact h1, fun k => ?_⟩
    rw [h2]
    simp only [AMap.get]
    by_cases hk : k0 = k
    · subst hk
      rw [AMap.get_none_of_above hs.1, AMap.get_set_self]; simp
    · rw [AMap.get_set_other _ _ _ _ (Ne.symm hk)]; simp [hk]

/-- C50: after `a.Merge(b)` with maps `a` and `b`, every key of `b` maps to `b`'s value, and
every other key of `a` keeps its value; nothing else is there. -/
theorem merge_overrides {a b : List (Bytes × Val)} (hb : AMap.Sorted b) :
    ∃ m, mergeFrom (.map a) b = (.map m, none) ∧
      (∀ k x, getPath? (.map b) [.key k] = some x → getPath? (.map m) [.key k] = some x) ∧
      (∀ k, hasPath (.map b) [.key k] = false →
        getPath? (.map m) [.key k] = getPath? (.map a) [.key k]) := by
  obtain ⟨m, h1, h2⟩ := mergeFrom_spec (m := a) hb
  have hp : ∀ (l : List (Bytes × Val)) k, getPath? (.map l) [.key k] = AMap.get l k := by
    intro l k; simp only [getPath?, getElem?, getKey?]; cases AMap.get l k <;> rfl
  refine ⟨m, h1, fun k x hx => ?_, fun k hk => ?_⟩
  · rw [hp] at hx ⊢; rw [h2, hx]; rfl
  · rw [hasPath, hp] at hk
    rw [hp, hp, h2]
    cases hg : AMap.get b k with
    | none => rfl
    | some y => rw [hg] at hk; cases hk

/-- Merging into null makes it a copy of the map; into anything else throws (unless the other
map is empty) and changes nothing. -/
theorem merge_other (v : Val) (k : Bytes) (x : Val) (b : List (Bytes × Val))
    (h1 : v.ty ≠ .null) (h2 : v.ty ≠ .map) :
    mergeFrom v ((k, x) :: b) = (v, some .unexpectedType) := by
  cases v <;> simp_all [mergeFrom, setKey, Val.ty]

example : mergeFrom (.map [([97], .int 1), ([98], .int 2)]) [([98], .int 3), ([99], .int 4)] =
    (.map [([97], .int 1), ([98], .int 3), ([99], .int 4)], none) := by rfl

end Verif
