import Verif.Val.PathProps
/-!
# References (C18)
-/

namespace Verif

theorem getElem?_some_ty {v c : Val} {e : PathElem} (h : getElem? v e = some c) :
    v.ty = e.containerTy := by
  cases e <;> cases v <;> simp [getElem?, getKey?, getIndex?] at h <;> rfl

/-! ## `storeAt` -/

theorem storeAt_append (v : Val) (p q : VPath) (x w : Val) (h : getPath? v p = some w) :
    storeAt v (p ++ q) x = storeAt v p (storeAt w q x) := by
  induction p generalizing v with
  | nil => cases h; rfl
  | cons e p ih =>
    rw [getPath?_cons] at h
    cases hc : getElem? v e with
    | none => rw [hc] at h; cases h
    | some c =>
      rw [hc] at h
      simp only [List.cons_append, storeAt, hc]
      rw [ih c h]

theorem storeAt_same {v w : Val} {p : VPath} (hw : v.WF) (h : getPath? v p = some w) :
    storeAt v p w = v := by
  induction p generalizing v with
  | nil => cases h; rfl
  | cons e p ih =>
    rw [getPath?_cons] at h
    cases hc : getElem? v e with
    | none => rw [hc] at h; cases h
    | some c =>
      rw [hc] at h
      simp only [storeAt, hc]
      rw [ih (getElem?_wf hw hc) h, putElem_same hw hc]

/-- Writing below an existing element is writing into that element. -/
theorem setPath_append {v w : Val} {p : VPath} (q : VPath) (x : Val) (h : getPath? v p = some w) :
    setPath v (p ++ q) x = (storeAt v p (setPath w q x).1, (setPath w q x).2) := by
  induction p generalizing v with
  | nil => cases h; rfl
  | cons e p ih =>
    rw [getPath?_cons] at h
    cases hc : getElem? v e with
    | none => rw [hc] at h; cases h
    | some c =>
      rw [hc] at h
      rw [List.cons_append, setPath, hc]
      simp only [storeAt, hc, ih h]

/-! ## Creating, then storing, is `SetPath` -/

theorem setElem_null_then_put {v x : Val} {e : PathElem} :
    (∃ w, setElem v e .null = (w, none) ∧ setElem v e x = (putElem w e x, none)) ∨
    (∃ w er, setElem v e .null = (w, some er) ∧ setElem v e x = (w, some er)) := by
  have hl : ∀ xs i, (∃ w, setIndexList xs i .null = (w, none) ∧
        setIndexList xs i x = (putElem w (.index i) x, none)) ∨
      (∃ w er, setIndexList xs i .null = (w, some er) ∧ setIndexList xs i x = (w, some er)) := by
    intro xs i
    simp only [setIndexList]
    generalize (if i.toNat < xs.length then xs else _) = ys
    split
    · exact .inl ⟨_, rfl, by simp [putElem]⟩
    · exact .inr ⟨_, _, rfl, rfl⟩
  cases e with
  | key k =>
    cases v <;> simp [setElem, setKey, putElem, AMap.set]
    rename_i m
    have := putElem_putElem (v := .map m) (c := .null) (c' := x) (e := .key k)
    simp only [putElem, Val.map.injEq] at this
    exact this.symm
  | index i =>
    cases v <;> simp only [setElem, setIndex]
    case null => exact hl [] i
    case list xs => exact hl xs i
    all_goals exact .inr ⟨_, _, rfl, rfl⟩

/-- `GetPathRef` with a null default: creates the elements on the way, keeps those that are
there, and refers to the element at the path; storing there is then `SetPath`. -/
theorem getPathRef_create (v : Val) (p : VPath) (x : Val) :
    (∃ v' w, getPathRef v p (some .null) = (v', .ok ⟨p, []⟩) ∧ getPath? v' p = some w ∧
      setPath v p x = (storeAt v' p x, none)) ∨
    (∃ v' er, getPathRef v p (some .null) = (v', .throw er) ∧ setPath v p x = (v', some er)) := by
  induction p generalizing v with
  | nil => exact .inl ⟨v, v, rfl, rfl, rfl⟩
  | cons e q ih =>
    rw [getPathRef, setPath]
    cases hc : getElem? v e with
    | some c =>
      simp only
      by_cases hq : q = []
      · subst hq
        rw [if_pos rfl]
        refine .inl ⟨v, c, rfl, by simp [getPath?, hc], ?_⟩
        simp [setPath, storeAt, hc]
      · rw [if_neg hq]
        rcases ih c with ⟨v', w, h1, h2, h3⟩ | ⟨v', er, h1, h3⟩
        · rw [h1, h3]
          refine .inl ⟨putElem v e v', w, rfl, ?_, ?_⟩
          · rw [getPath?_cons, getElem?_putElem_self hc]; exact h2
          · simp only [storeAt, getElem?_putElem_self hc, putElem_putElem]
        · rw [h1, h3]
          exact .inr ⟨putElem v e v', er, rfl, rfl⟩
    | none =>
      simp only
      by_cases hq : q = []
      · subst hq
        simp only [if_true]
        rw [getRefElem]
        by_cases ht : v.ty = .null ∨ v.ty = e.containerTy
        · rw [if_pos ht, hc]
          simp only [Option.isSome_none, Bool.false_eq_true, if_false]
          rcases setElem_null_then_put (v := v) (x := x) (e := e) with ⟨w, h1, h2⟩ | ⟨w, er, h1, h2⟩
          · rw [h1, h2]
            have hg := (setElem_ok h1).1
            refine .inl ⟨w, .null, rfl, by simp [getPath?, hg], ?_⟩
            simp [storeAt, hg]
          · rw [h1, h2]; exact .inr ⟨w, er, rfl, rfl⟩
        · rw [if_neg ht]
          simp only [not_or] at ht
          rw [(setElem_only_null_converts v e x).2 ht.1 ht.2]
          exact .inr ⟨v, _, rfl, rfl⟩
      · simp only [if_neg hq]
        cases hs : setElem v e .null with
        | mk w er =>
          cases er with
          | some er => exact .inr ⟨w, er, rfl, rfl⟩
          | none =>
            have hg := (setElem_ok hs).1
            rcases ih .null with ⟨v', w', h1, h2, h3⟩ | ⟨v', er, h1, h3⟩
            · simp only [h1, h3]
              refine .inl ⟨putElem w e v', w', rfl, ?_, ?_⟩
              · rw [getPath?_cons, getElem?_putElem_self hg]; exact h2
              · simp only [storeAt, getElem?_putElem_self hg, putElem_putElem]
            · simp only [h1, h3]
              exact .inr ⟨putElem w e v', er, rfl, rfl⟩

/-! ## References that denote a path -/

/-- What a chain of lookups without defaults maintains: the reference denotes the path `p`, its
existing part exists, and the missing part is missing at its first element, where an element
could be created. -/
structure Denotes (doc : Val) (r : VRef) (p : VPath) : Prop where
  path : p = r.here ++ r.missing
  here : ∃ v, getPath? doc r.here = some v ∧
    ∀ e ms, r.missing = e :: ms → getElem? v e = none ∧ (v.ty = .null ∨ v.ty = e.containerTy)

theorem Denotes.read {doc : Val} {r : VRef} {p : VPath} (h : Denotes doc r p) :
    refRead doc r = (doc, getPath doc p) := by
  obtain ⟨v, hv, -⟩ := h.here
  simp only [refRead, hv, h.path]
  have : ∀ (w : Val) (a b : VPath) (u : Val), getPath? w a = some u →
      getPath w (a ++ b) = getPath u b := by
    intro w a
    induction a generalizing w with
    | nil => intro b u h; cases h; rfl
    | cons e a ih =>
      intro b u h
      rw [getPath?_cons] at h
      cases hc : getElem? w e with
      | none => rw [hc] at h; cases h
      | some c =>
        rw [hc] at h
        simp only [List.cons_append, getPath, getElemC_iff.2 hc, Out.bind_ok]
        exact ih c b u h
  rw [this _ _ _ _ hv]

theorem Denotes.exists {doc : Val} {r : VRef} {p : VPath} (h : Denotes doc r p) :
    refExists doc r = hasPath doc p := by
  obtain ⟨v, hv, -⟩ := h.here
  simp [refExists, hv, hasPath, h.path, getPath?_append]

theorem Denotes.assign {doc : Val} {r : VRef} {p : VPath} (h : Denotes doc r p) (x : Val) :
    refAssign doc r x = setPath doc p x := by
  obtain ⟨v, hv, -⟩ := h.here
  obtain ⟨here, ms⟩ := r
  have hp := h.path
  simp only at hp hv
  subst hp
  rw [setPath_append ms x hv]
  simp only [refAssign, onRefCreate, hv]
  cases ms with
  | nil => simp [setPath]
  | cons e ms =>
    simp only
    rcases getPathRef_create v (e :: ms) x with ⟨v', w, h1, h2, h3⟩ | ⟨v', er, h1, h3⟩
    · simp only [h1, h2, h3]
      rfl
    · simp only [h1, h3]

/-- One lookup keeps the document unchanged and denotes one element more; it throws exactly
where writing would. -/
theorem refAt_denotes {doc : Val} {r : VRef} {p : VPath} (hw : doc.WF) (h : Denotes doc r p)
    (e : PathElem) :
    (∃ r', refAt doc r e none = (doc, .ok r') ∧ Denotes doc r' (p ++ [e])) ∨
    (refAt doc r e none = (doc, .throw .unexpectedType) ∧
      ∀ q x, setPath doc (p ++ e :: q) x = (doc, some .unexpectedType) ∧
        ∃ er, getPath doc (p ++ e :: q) = .throw er) := by
  obtain ⟨v, hv, hm⟩ := h.here
  obtain ⟨here, ms⟩ := r
  have hp := h.path
  simp only at hp hv hm
  subst hp
  simp only [refAt, hv]
  cases ms with
  | nil =>
    simp only [getRefElem]
    by_cases ht : v.ty = .null ∨ v.ty = e.containerTy
    · simp only [if_pos ht]
      by_cases hg : (getElem? v e).isSome
      · left
        obtain ⟨c, hc⟩ := Option.isSome_iff_exists.1 hg
        simp only [if_pos hg, storeAt_same hw hv]
        refine ⟨⟨here ++ [e], []⟩, rfl, ⟨by simp, c, ?_, by simp⟩⟩
        simp [getPath?_append, hv, getPath?, hc]
      · left
        simp only [if_neg hg, storeAt_same hw hv]
        refine ⟨⟨here, [e]⟩, by simp [VRef.under], ⟨by simp, v, hv, ?_⟩⟩
        intro e' ms he
        simp only [List.cons.injEq] at he
        obtain ⟨rfl, rfl⟩ := he
        exact ⟨by simpa using hg, ht⟩
    · right
      simp only [if_neg ht, storeAt_same hw hv]
      refine ⟨rfl, fun q x => ?_⟩
      simp only [not_or] at ht
      simp only [List.append_nil]
      refine ⟨setPath_wrong_type_throws hw hv ht.1 ht.2, ?_⟩
      apply getPath_none
      rw [getPath?_append, hv]
      have : getElem? v e = none := by
        cases hg : getElem? v e with
        | none => rfl
        | some c => exact absurd (getElem?_some_ty hg) ht.2
      simp [getPath?, this]
  | cons m ms =>
    obtain ⟨h1, h2⟩ := hm m ms rfl
    have : getPath? v (m :: ms) = none := by simp [getPath?, h1]
    left
    simp only [this]
    refine ⟨_, rfl, ⟨by simp, v, hv, ?_⟩⟩
    intro e' ms' he
    simp only [List.cons_append, List.cons.injEq] at he
    rw [← he.1]
    exact ⟨h1, h2⟩

theorem refChain_denotes {doc : Val} {r : VRef} {p : VPath} (hw : doc.WF) (h : Denotes doc r p)
    (es : VPath) :
    (∃ r', refChain doc r es = (doc, .ok r') ∧ Denotes doc r' (p ++ es)) ∨
    (refChain doc r es = (doc, .throw .unexpectedType) ∧
      ∀ x, setPath doc (p ++ es) x = (doc, some .unexpectedType) ∧
        ∃ er, getPath doc (p ++ es) = .throw er) := by
  induction es generalizing r p with
  | nil => exact .inl ⟨r, rfl, by simpa using h⟩
  | cons e es ih =>
    rcases refAt_denotes hw h e with ⟨r', h1, h2⟩ | ⟨h1, h2⟩
    · simp only [refChain, h1]
      have := ih h2
      simpa using this
    · right
      simp only [refChain, h1]
      exact ⟨trivial, fun x => h2 es x⟩

theorem root_denotes (doc : Val) : Denotes doc .root [] :=
  ⟨rfl, doc, rfl, by simp [VRef.root]⟩

/-! ## C18 -/

/-- C18, reading: a chain of lookups `doc[e1][e2]...` leaves the document unchanged, whether or
not the elements exist; reading the reference obtained leaves it unchanged too, and gives what
`GetPath` gives: the element, or an exception if it is missing.  If the chain itself throws,
so does `GetPath`. -/
theorem chain_read_unchanged (doc : Val) (hw : doc.WF) (p : VPath) :
    (∃ r, refChain doc .root p = (doc, .ok r) ∧ refRead doc r = (doc, getPath doc p) ∧
      refExists doc r = hasPath doc p) ∨
    (refChain doc .root p = (doc, .throw .unexpectedType) ∧ ∃ er, getPath doc p = .throw er) := by
  rcases refChain_denotes hw (root_denotes doc) p with ⟨r, h1, h2⟩ | ⟨h1, h2⟩
  · simp only [List.nil_append] at h2
    exact .inl ⟨r, h1, h2.read, h2.exists⟩
  · exact .inr ⟨h1, (h2 .null).2⟩

/-- C18, assigning: assigning through the chain `doc[e1][e2]... = x` does exactly what
`SetPath` with the path `e1 e2 ...` does, including what it leaves behind when it throws. -/
theorem chain_assign_eq_setPath (doc : Val) (hw : doc.WF) (p : VPath) (x : Val) :
    (∃ r, refChain doc .root p = (doc, .ok r) ∧ refAssign doc r x = setPath doc p x) ∨
    (∃ er, refChain doc .root p = (doc, .throw er) ∧ setPath doc p x = (doc, some er)) := by
  rcases refChain_denotes hw (root_denotes doc) p with ⟨r, h1, h2⟩ | ⟨h1, h2⟩
  · simp only [List.nil_append] at h2
    exact .inl ⟨r, h1, h2.assign x⟩
  · exact .inr ⟨_, h1, (h2 x).1⟩

/-- `AtPath(p)`: leaves the document unchanged, never throws, and reading or assigning through
it is `GetPath` or `SetPath`. -/
theorem atPath_spec (doc : Val) (hw : doc.WF) (p : VPath) (x : Val) :
    ∃ r, getPathRef doc p none = (doc, .ok r) ∧ refRead doc r = (doc, getPath doc p) ∧
      refExists doc r = hasPath doc p ∧ refAssign doc r x = setPath doc p x := by
  -- the reference denotes the path, except that a wrong type on the way is found later
  have key : ∃ r v, getPathRef doc p none = (doc, .ok r) ∧ p = r.here ++ r.missing ∧
      getPath? doc r.here = some v := by
    induction p generalizing doc with
    | nil => exact ⟨_, doc, rfl, rfl, rfl⟩
    | cons e q ih =>
      rw [getPathRef]
      cases hc : getElem? doc e with
      | none => exact ⟨_, doc, rfl, rfl, rfl⟩
      | some c =>
        simp only
        split
        · rename_i hq; subst hq
          exact ⟨_, c, rfl, rfl, by simp [getPath?, hc]⟩
        · obtain ⟨r, v, h1, h2, h3⟩ := ih c (getElem?_wf hw hc)
          rw [h1]
          refine ⟨VRef.under [e] r, v, by rw [putElem_same hw hc]; rfl, by simp [VRef.under, h2], ?_⟩
          simp only [VRef.under, List.singleton_append, getPath?, hc]
          exact h3
  obtain ⟨⟨here, ms⟩, v, h1, h2, h3⟩ := key
  simp only at h2 h3
  subst h2
  refine ⟨⟨here, ms⟩, h1, ?_, ?_, ?_⟩
  · have : ∀ (w : Val) (a b : VPath) (u : Val), getPath? w a = some u →
        getPath w (a ++ b) = getPath u b := by
      intro w a
      induction a generalizing w with
      | nil => intro b u h; cases h; rfl
      | cons e a ih =>
        intro b u h
        rw [getPath?_cons] at h
        cases hc : getElem? w e with
        | none => rw [hc] at h; cases h
        | some c =>
          rw [hc] at h
          simp only [List.cons_append, getPath, getElemC_iff.2 hc, Out.bind_ok]
          exact ih c b u h
    simp only [refRead, h3]
    rw [this _ _ _ _ h3]
  · simp [refExists, h3, hasPath, getPath?_append]
  · rw [setPath_append ms x h3]
    simp only [refAssign, onRefCreate, h3]
    cases ms with
    | nil => simp [setPath]
    | cons e ms =>
      simp only
      rcases getPathRef_create v (e :: ms) x with ⟨v', w, h1, h2, h3⟩ | ⟨v', er, h1, h3⟩
      · simp only [h1, h2, h3]
        rfl
      · simp only [h1, h3]

example : refChain (.map [([97], .list [.int 1])]) .root [.key [97], .index 3, .key [98]] =
    (.map [([97], .list [.int 1])], .ok ⟨[.key [97]], [.index 3, .key [98]]⟩) := by rfl
example : refAssign (.map [([97], .list [.int 1])]) ⟨[.key [97]], [.index 2, .key [98]]⟩ (.int 7) =
    (.map [([97], .list [.int 1, .null, .map [([98], .int 7)]])], none) := by rfl

end Verif
