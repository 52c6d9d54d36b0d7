import Verif.Defaults.Steps
/-!
# Filling in defaults, with paths instead of references
-/

namespace Verif.Defaults
open Verif Schema

/-- `fill` on the place `p`. -/
def fillP (get : Bytes → Out Val) : Nat → Val → Val → VPath → Run
  | 0, _, _, _ => none
  | n + 1, .map m, doc, p =>
    andThen (atRef get m doc fun s => fillP get n s doc p) fun doc =>
    match ownDefault m (getPath? doc p) with
    | some d => wrote (setPath doc p d)
    | none =>
      andThen (atProperties m doc (getPath? doc p) fun doc x => fillP get n x.2 doc (p ++ [.key x.1])) fun doc =>
      andThen (atItems m doc (getPath? doc p) fun doc s => fillP get n s.1 doc (p ++ [.index s.2])) fun doc =>
      forEach (fun doc s => fillP get n s doc p) doc
        (membersOf m kAllOf ++ membersOf m kOneOf ++ membersOf m kAnyOf)
  | _ + 1, _, doc, _ => some (doc, .ok ())

/-! ## Sequences and loops -/

theorem andThen_some {r : Run} {f : Val → Run} {x : Val × Out Unit} (h : andThen r f = some x) :
    (∃ d, r = some (d, .ok ()) ∧ f d = some x) ∨ (r = some x ∧ x.2 ≠ .ok ()) := by
  unfold andThen at h
  cases r with
  | none => cases h
  | some y =>
    obtain ⟨d, o⟩ := y
    cases o with
    | ok u => exact .inl ⟨d, rfl, h⟩
    | throw e => cases h; exact .inr ⟨rfl, nofun⟩
    | ub => cases h; exact .inr ⟨rfl, nofun⟩

/-- A relation between documents that a statement establishes whatever its outcome. -/
theorem andThen_rel {R : Val → Val → Prop} (ht : ∀ {a b c}, R a b → R b c → R a c) {a : Val} {r : Run} {f : Val → Run}
    (h1 : ∀ x, r = some x → R a x.1) (h2 : ∀ d, R a d → ∀ x, f d = some x → R d x.1) :
    ∀ x, andThen r f = some x → R a x.1 := by
  intro x hx
  rcases andThen_some hx with ⟨d, h, h'⟩ | ⟨h, _⟩
  · have := h1 _ h
    exact ht this (h2 d this x h')
  · exact h1 x h

theorem forEach_rel {α : Type} {R : Val → Val → Prop} (hr : ∀ a, R a a) (ht : ∀ {a b c}, R a b → R b c → R a c)
    {f : Val → α → Run} {as : List α} {b : Val} (h : ∀ a ∈ as, ∀ d, R b d → ∀ x, f d a = some x → R d x.1) :
    ∀ d, R b d → ∀ x, forEach f d as = some x → R d x.1 := by
  induction as with
  | nil => intro d _ x hx; cases hx; exact hr _
  | cons a as ih =>
    intro d hb x hx
    refine andThen_rel (R := R) ht (h a (List.mem_cons_self ..) d hb) ?_ x hx
    intro d' hd' x hx
    exact ih (fun a ha => h a (List.mem_cons_of_mem _ ha)) d' (ht hb hd') x hx

/-! ## Members of a schema -/

theorem strAt_get {m : List (Bytes × Val)} {k u : Bytes} (h : Loader.strAt m k = some u) : AMap.get m k = some (.str u) := by
  unfold Loader.strAt at h
  split at h
  · rename_i s hs; cases h; exact hs
  · cases h

theorem mem_membersOf {m : List (Bytes × Val)} {k : Bytes} {s : Val} (h : s ∈ membersOf m k) :
    ∃ ss, AMap.get m k = some (.list ss) ∧ s ∈ ss := by
  unfold membersOf at h
  split at h
  · rename_i ss hs; exact ⟨ss, hs, h⟩
  · cases h

theorem atRef_cases (get : Bytes → Out Val) (m : List (Bytes × Val)) (doc : Val) :
    (Loader.strAt m kRef = none ∧ ∀ f, atRef get m doc f = some (doc, .ok ())) ∨
    (∃ u s, AMap.get m kRef = some (.str u) ∧ get u = .ok s ∧ ∀ f, atRef get m doc f = f s) ∨
    (∃ u o, AMap.get m kRef = some (.str u) ∧ (∀ s, get u ≠ .ok s) ∧ o ≠ .ok () ∧ ∀ f, atRef get m doc f = some (doc, o)) := by
  unfold atRef
  cases hr : Loader.strAt m kRef with
  | none => exact .inl ⟨rfl, fun _ => rfl⟩
  | some u =>
    dsimp only
    cases hu : get u with
    | ok s => exact .inr (.inl ⟨u, s, strAt_get hr, hu, fun _ => rfl⟩)
    | throw e => exact .inr (.inr ⟨u, .throw e, strAt_get hr, by rw [hu]; nofun, nofun, fun _ => rfl⟩)
    | ub => exact .inr (.inr ⟨u, .ub, strAt_get hr, by rw [hu]; nofun, nofun, fun _ => rfl⟩)

theorem ownDefault_some {m : List (Bytes × Val)} {x : Option Val} {d : Val} (h : ownDefault m x = some d) :
    missingOrNull x = true ∧ AMap.get m kDefault = some d := by
  unfold ownDefault at h
  by_cases hx : missingOrNull x = true
  · rw [if_pos hx] at h; exact ⟨hx, h⟩
  · rw [if_neg hx] at h; cases h

theorem ownDefault_none {m : List (Bytes × Val)} {x : Option Val} (h : ownDefault m x = none) :
    missingOrNull x = false ∨ AMap.get m kDefault = none := by
  unfold ownDefault at h
  by_cases hx : missingOrNull x = true
  · rw [if_pos hx] at h; exact .inr h
  · exact .inl (by simpa using hx)

theorem atProperties_cases (m : List (Bytes × Val)) (doc : Val) (x : Option Val) :
    (∃ ps, missingOr .map x = true ∧ AMap.get m kProperties = some (.map ps) ∧ ∀ f, atProperties m doc x f = forEach f doc ps) ∨
    ((missingOr .map x = false ∨ ∀ ps, AMap.get m kProperties ≠ some (.map ps)) ∧ ∀ f, atProperties m doc x f = some (doc, .ok ())) ∨
    (∃ v, missingOr .map x = true ∧ AMap.get m kProperties = some v ∧ v.ty ≠ .map ∧ v.ty ≠ .null ∧
      ∀ f, atProperties m doc x f = some (doc, .throw .unableToConvert)) := by
  unfold atProperties
  by_cases hx : missingOr .map x = true
  · cases hp : AMap.get m kProperties with
    | none => exact .inr (.inl ⟨.inr (by simp), fun _ => by simp only [ite_self]⟩)
    | some v =>
      cases v with
      | map ps => exact .inl ⟨ps, hx, rfl, fun _ => by simp only [if_pos hx]⟩
      | null => exact .inr (.inl ⟨.inr (by simp), fun _ => by simp only [if_pos hx]⟩)
      | _ => exact .inr (.inr ⟨_, hx, rfl, by simp [Val.ty], by simp [Val.ty], fun _ => by simp only [if_pos hx]⟩)
  · exact .inr (.inl ⟨.inl (by simpa using hx), fun _ => if_neg hx⟩)

theorem atItems_cases (m : List (Bytes × Val)) (doc : Val) (x : Option Val) :
    (∃ v, missingOr .list x = true ∧ AMap.get m kItems = some v ∧ ∀ f, atItems m doc x f = forEach f doc (itemsOf v)) ∨
    ((missingOr .list x = false ∨ AMap.get m kItems = none) ∧ ∀ f, atItems m doc x f = some (doc, .ok ())) := by
  unfold atItems
  by_cases hx : missingOr .list x = true
  · cases hp : AMap.get m kItems with
    | none => exact .inr ⟨.inr rfl, fun _ => by simp only [ite_self]⟩
    | some v => exact .inl ⟨v, hx, rfl, fun _ => by simp only [if_pos hx]⟩
  · exact .inr ⟨.inl (by simpa using hx), fun _ => if_neg hx⟩

theorem mem_itemsOf {v s : Val} {i : UInt32} (h : (s, i) ∈ itemsOf v) :
    (∃ (ss : List Val) (j : Nat), v = .list ss ∧ ss[j]? = some s ∧ j < 2 ^ 32 - 1 ∧ i = UInt32.ofNat j) ∨
      (v.ty ≠ .list ∧ s = v ∧ i = 0) := by
  unfold itemsOf at h
  split at h
  · rename_i ss
    left
    simp only [List.mem_map, Prod.mk.injEq] at h
    obtain ⟨⟨x, j⟩, hx, rfl, rfl⟩ := h
    have h1 := List.mem_zipIdx_iff_getElem?.1 hx
    rw [List.getElem?_take] at h1
    by_cases h2 : j < ss.length % 2 ^ 32
    · simp only [h2, if_true] at h1
      have : ss.length % 2 ^ 32 < 2 ^ 32 := Nat.mod_lt _ (by decide)
      exact ⟨ss, j, rfl, h1, by omega, rfl⟩
    · simp [h2] at h1
  · rename_i hl
    right
    simp only [List.mem_singleton, Prod.mk.injEq] at h
    refine ⟨?_, h.1, h.2⟩
    intro ht
    cases v <;> simp [Val.ty] at ht
    exact hl _ rfl

theorem noMax {j : Nat} (h : j < 2 ^ 32 - 1) : PathElem.index (UInt32.ofNat j) ≠ .index 0xFFFFFFFF := by
  intro e
  simp only [PathElem.index.injEq] at e
  have := congrArg UInt32.toNat e
  rw [UInt32.toNat_ofNat'] at this
  simp at this
  omega

theorem ofItems_noMax {v s : Val} {i : UInt32} (h : (s, i) ∈ itemsOf v) : PathElem.index i ≠ .index 0xFFFFFFFF := by
  rcases mem_itemsOf h with ⟨_, j, _, _, h1, rfl⟩ | ⟨_, _, rfl⟩
  · exact noMax h1
  · decide

/-! ## Defaults below a place -/

/-- The defaults a schema gives for places below `p`. -/
def Below (get : Bytes → Out Val) (s : Val) (p : VPath) (q : VPath) (d : Val) : Prop :=
  ∃ r, q = p ++ r ∧ DefaultAt get s r d

theorem below_elem {get : Bytes → Out Val} {s t : Val} {p : VPath} {e : PathElem}
    (h : ∀ r d, DefaultAt get t r d → DefaultAt get s (e :: r) d) : ∀ q d, Below get t (p ++ [e]) q d → Below get s p q d := by
  rintro q d ⟨r, rfl, hr⟩
  exact ⟨e :: r, by simp, h r d hr⟩

theorem below_same {get : Bytes → Out Val} {s t : Val} {p : VPath}
    (h : ∀ r d, DefaultAt get t r d → DefaultAt get s r d) : ∀ q d, Below get t p q d → Below get s p q d := by
  rintro q d ⟨r, rfl, hr⟩
  exact ⟨r, rfl, h r d hr⟩

/-! ## Places that can be written -/

theorem open_root (doc : Val) : Open doc [] := ⟨fun _ => rfl, by simp⟩

theorem some_prefix {doc v : Val} {q r : VPath} {e : PathElem} (h : getPath? doc (q ++ e :: r) = some v) :
    ∃ w, getPath? doc q = some w ∧ w.ty = e.containerTy := by
  rw [getPath?_append] at h
  cases hw : getPath? doc q with
  | none => rw [hw] at h; cases h
  | some w =>
    rw [hw] at h
    cases hc : getElem? w e with
    | none => simp [getPath?, hc] at h
    | some c => exact ⟨w, rfl, getElem?_some_ty hc⟩

theorem containerTy_ne_null (e : PathElem) : e.containerTy ≠ .null := by cases e <;> simp [PathElem.containerTy]

theorem open_some {doc v : Val} {p : VPath} (h : getPath? doc p = some v) : Open doc p := by
  constructor
  · intro x
    have := setPath_append [] x h
    rw [List.append_nil] at this
    rw [this]
    rfl
  · intro q e r hp hq
    rw [hp] at h
    obtain ⟨w, h1, h2⟩ := some_prefix h
    rw [hq] at h1
    cases h1
    exact containerTy_ne_null e h2.symm

theorem stored_below {doc : Val} {p : VPath} {e : PathElem} (h : ∀ x, (setPath doc p x).2 = none)
    (ht : missingOr e.containerTy (getPath? doc p) = true) (hm : e ≠ .index 0xFFFFFFFF) (x : Val) : (setPath doc (p ++ [e]) x).2 = none := by
  cases hv : getPath? doc p with
  | some v =>
    rw [hv] at ht
    simp only [missingOr, decide_eq_true_eq] at ht
    rw [setPath_append [e] x hv]
    dsimp only
    rw [setPath]
    cases hc : getElem? v e with
    | some c => rfl
    | none =>
      simp only [if_true]
      cases hs : setElem v e x with
      | mk w er =>
        cases er with
        | none => rfl
        | some er => exact absurd ht (setElem_err hs hm).2.2.2
  | none =>
    clear ht
    induction p generalizing doc with
    | nil => cases hv
    | cons f p ih =>
      rw [getPath?_cons] at hv
      rw [List.cons_append, setPath]
      cases hc : getElem? doc f with
      | some c =>
        rw [hc] at hv
        dsimp only
        refine ih (doc := c) ?_ hv
        intro y
        have := h y
        rw [setPath, hc] at this
        exact this
      | none =>
        dsimp only
        rw [if_neg (by simp)]
        have h0 := h .null
        rw [setPath, hc] at h0
        dsimp only at h0
        by_cases hp : p = []
        · subst hp
          rw [if_pos rfl] at h0
          cases hs : setElem doc f .null with
          | mk w er =>
            rw [hs] at h0
            dsimp only at h0
            subst h0
            dsimp only
            obtain ⟨v', h'⟩ := setElem_null (e := e) x hm
            rw [List.nil_append, setPath, getElem?_null]
            simp only [if_true]
            rw [h']
        · rw [if_neg hp] at h0
          cases hs : setElem doc f .null with
          | mk w er =>
            rw [hs] at h0
            cases er with
            | some er => simp at h0
            | none =>
              dsimp only
              refine ih (doc := .null) ?_ (by cases p with | nil => exact absurd rfl hp | cons a b => simp [getPath?, getElem?_null])
              intro y
              have := h y
              rw [setPath, hc] at this
              dsimp only at this
              rw [if_neg hp, hs] at this
              exact this

theorem snoc_split {p q r : VPath} {e f : PathElem} (h : p ++ [e] = q ++ f :: r) : (q = p ∧ r = []) ∨ ∃ s, p = q ++ f :: s := by
  rcases List.append_eq_append_iff.1 h with ⟨s, h1, h2⟩ | ⟨s, h1, h2⟩
  · cases s with
    | nil => simp at h1 h2; exact .inl ⟨h1, h2.2⟩
    | cons a s => simp at h2
  · cases s with
    | nil => simp at h1 h2; exact .inl ⟨h1.symm, h2.2⟩
    | cons a s =>
      simp only [List.cons_append, List.cons.injEq] at h2
      rw [← h2.1] at h1
      exact .inr ⟨s, h1⟩

theorem open_below {doc : Val} {p : VPath} {e : PathElem} (h : Open doc p)
    (ht : missingOr e.containerTy (getPath? doc p) = true) (hm : e ≠ .index 0xFFFFFFFF) : Open doc (p ++ [e]) := by
  refine ⟨stored_below h.stored ht hm, ?_⟩
  intro q f r hp hq
  rcases snoc_split hp with ⟨rfl, _⟩ | ⟨s, rfl⟩
  · rw [hq] at ht
    simp only [missingOr, decide_eq_true_eq, Val.ty] at ht
    exact containerTy_ne_null e (of_decide_eq_true ht).symm
  · exact h.way q f s rfl hq

theorem open_step {b c d : Val} {p r : VPath} (h : setPath b (p ++ r) d = (c, none)) : Open c p := by
  have := setPath_below h []
  rw [List.append_nil, getPath?_append] at this
  cases hv : getPath? c p with
  | none => rw [hv] at this; cases this
  | some v => exact open_some hv

theorem open_steps {get : Bytes → Out Val} {s a b : Val} {p : VPath} (h : Steps (Below get s p) a b) (ha : Open a p) :
    Open b p := by
  cases h with
  | refl => exact ha
  | step _ _ _ h3 h4 =>
    obtain ⟨r, rfl, _⟩ := h3
    exact open_step h4

/-! ## A run is a sequence of writes of defaults -/

theorem wrote_steps {get : Bytes → Out Val} {m : List (Bytes × Val)} {d doc : Val} {p : VPath} (hf : Free doc p) (ho : Open doc p)
    (hd : AMap.get m kDefault = some d) : ∀ x, wrote (setPath doc p d) = some x → Steps (Below get (.map m) p) doc x.1 := by
  intro x hx
  cases hs : setPath doc p d with
  | mk c er =>
    have := ho.stored d
    rw [hs] at this
    dsimp only at this
    subst this
    rw [hs] at hx
    cases hx
    exact .step .refl hf ho ⟨[], by simp, .own hd⟩ hs

theorem member_combining {get : Bytes → Out Val} {m : List (Bytes × Val)} {s : Val}
    (h : s ∈ membersOf m kAllOf ++ membersOf m kOneOf ++ membersOf m kAnyOf) {r : VPath} {d : Val} (hd : DefaultAt get s r d) :
    DefaultAt get (.map m) r d := by
  simp only [List.mem_append] at h
  rcases h with (h | h) | h <;> obtain ⟨ss, h1, h2⟩ := mem_membersOf h
  · exact .member (k := kAllOf) (by simp [combining]) h1 h2 hd
  · exact .member (k := kOneOf) (by simp [combining]) h1 h2 hd
  · exact .member (k := kAnyOf) (by simp [combining]) h1 h2 hd

theorem missingOr_steps {get : Bytes → Out Val} {s a b : Val} {p : VPath} {e : PathElem} (h : Steps (Below get s (p ++ [e])) a b)
    (ha : missingOr e.containerTy (getPath? a p) = true) : missingOr e.containerTy (getPath? b p) = true := by
  cases h with
  | refl => exact ha
  | step _ _ _ q3 q4 =>
    obtain ⟨r, rfl, _⟩ := q3
    rw [List.append_assoc, List.singleton_append] at q4
    have := setPath_below q4 []
    rw [List.append_nil, getPath?_append] at this
    cases hv : getPath? b p with
    | none => rfl
    | some v =>
      rw [hv] at this
      cases hc : getElem? v e with
      | none => simp [getPath?, hc] at this
      | some c => simpa [missingOr] using getElem?_some_ty hc

theorem open_steps_below {get : Bytes → Out Val} {s a b : Val} {p : VPath} {e : PathElem} (h : Steps (Below get s (p ++ [e])) a b)
    (ha : Open a p) : Open b p := by
  cases h with
  | refl => exact ha
  | step _ _ _ h3 h4 =>
    obtain ⟨r, rfl, _⟩ := h3
    rw [List.append_assoc] at h4
    exact open_step h4

/-- A loop over places below `p`, all in the same kind of container. -/
theorem loop_steps {α : Type} {get : Bytes → Out Val} {m : List (Bytes × Val)} {p : VPath} {t : Ty} {f : Val → α → Run} {el : α → PathElem}
    {sc : α → Val} {as : List α} (hel : ∀ a ∈ as, (el a).containerTy = t ∧ el a ≠ .index 0xFFFFFFFF)
    (hsc : ∀ a ∈ as, ∀ r d, DefaultAt get (sc a) r d → DefaultAt get (.map m) (el a :: r) d)
    (hf : ∀ a ∈ as, ∀ d, Open d (p ++ [el a]) → ∀ x, f d a = some x → Steps (Below get (sc a) (p ++ [el a])) d x.1)
    {doc : Val} (ho : Open doc p) (ht : missingOr t (getPath? doc p) = true) :
    ∀ x, forEach f doc as = some x → Steps (Below get (.map m) p) doc x.1 ∧ Open x.1 p ∧ missingOr t (getPath? x.1 p) = true := by
  induction as generalizing doc with
  | nil => intro x hx; cases hx; exact ⟨.refl, ho, ht⟩
  | cons a as ih =>
    intro x hx
    obtain ⟨h1, h2⟩ := hel a (List.mem_cons_self ..)
    have step : ∀ y, f doc a = some y → Steps (Below get (.map m) p) doc y.1 ∧ Open y.1 p ∧ missingOr t (getPath? y.1 p) = true := by
      intro y hy
      have st := hf a (List.mem_cons_self ..) doc (open_below ho (by rw [h1]; exact ht) h2) y hy
      refine ⟨st.mono (below_elem (hsc a (List.mem_cons_self ..))), open_steps_below st ho, ?_⟩
      have := missingOr_steps st (by rw [h1]; exact ht)
      rwa [h1] at this
    rcases andThen_some hx with ⟨d, h3, h4⟩ | ⟨h3, _⟩
    · obtain ⟨s1, s2, s3⟩ := step _ h3
      obtain ⟨t1, t2, t3⟩ := ih (fun a ha => hel a (List.mem_cons_of_mem _ ha)) (fun a ha => hsc a (List.mem_cons_of_mem _ ha))
        (fun a ha => hf a (List.mem_cons_of_mem _ ha)) s2 s3 x h4
      exact ⟨s1.trans t1, t2, t3⟩
    · exact step x h3

theorem item_default {get : Bytes → Out Val} {m : List (Bytes × Val)} {v : Val} (hv : AMap.get m kItems = some v) :
    ∀ a ∈ itemsOf v, ∀ r d, DefaultAt get a.1 r d → DefaultAt get (.map m) (.index a.2 :: r) d := by
  rintro ⟨s, i⟩ ha r d hd
  rcases mem_itemsOf ha with ⟨l, j, rfl, hj, hj', rfl⟩ | ⟨hl, rfl, rfl⟩
  · exact .item hv hj hj' hd
  · exact .items hv hl hd

theorem fillP_steps (get : Bytes → Out Val) (n : Nat) : ∀ (s doc : Val) (p : VPath), Open doc p →
    ∀ x, fillP get n s doc p = some x → Steps (Below get s p) doc x.1 := by
  induction n with
  | zero => intro s doc p _ x h; cases h
  | succ n ih =>
    intro s doc p ho x h
    cases s with
    | map m =>
      let R := Steps (Below get (.map m) p)
      have ht : ∀ {a b c}, R a b → R b c → R a c := Steps.trans
      rw [fillP] at h
      refine andThen_rel (R := R) ht ?_ ?_ x h
      · intro x hx
        rcases atRef_cases get m doc with ⟨_, e⟩ | ⟨u, s, hr, hg, e⟩ | ⟨u, o, _, _, _, e⟩ <;> rw [e] at hx
        · cases hx; exact .refl
        · exact (ih s doc p ho x hx).mono (below_same fun _ _ => .ref hr hg)
        · cases hx; exact .refl
      · intro doc1 hR1 x hx
        have ho1 := open_steps hR1 ho
        cases hd : ownDefault m (getPath? doc1 p) with
        | some d =>
          rw [hd] at hx
          obtain ⟨h1, h2⟩ := ownDefault_some hd
          exact wrote_steps (free_iff.1 h1) ho1 h2 x hx
        | none =>
          rw [hd] at hx
          dsimp only at hx
          refine andThen_rel (R := R) ht ?_ ?_ x hx
          · intro x hx
            rcases atProperties_cases m doc1 (getPath? doc1 p) with ⟨ps, h1, h2, e⟩ | ⟨_, e⟩ | ⟨_, _, _, _, _, e⟩ <;> rw [e] at hx
            · exact (loop_steps (el := fun a => .key a.1) (sc := fun a => a.2) (fun a _ => ⟨rfl, by simp⟩)
                (fun a ha r d hd => .property h2 ha hd) (fun a ha d ho x hx => ih a.2 d _ ho x hx) ho1 h1 x hx).1
            · cases hx; exact .refl
            · cases hx; exact .refl
          · intro doc2 hR2 x hx
            have ho2 := open_steps hR2 ho1
            refine andThen_rel (R := R) ht ?_ ?_ x hx
            · intro x hx
              rcases atItems_cases m doc2 (getPath? doc2 p) with ⟨v, h1, h2, e⟩ | ⟨_, e⟩ <;> rw [e] at hx
              · exact (loop_steps (el := fun a => .index a.2) (sc := fun a => a.1) (fun a ha => ⟨rfl, ofItems_noMax ha⟩)
                  (item_default h2) (fun a ha d ho x hx => ih a.1 d _ ho x hx) ho2 h1 x hx).1
              · cases hx; exact .refl
            · intro doc3 hR3 x hx
              have ho3 := open_steps hR3 ho2
              exact forEach_rel (R := R) (fun _ => .refl) ht (b := doc3) (fun y hy d hd x hx =>
                (ih y d p (open_steps hd ho3) x hx).mono (below_same fun _ _ => member_combining hy)) doc3 .refl x hx
    | _ => rw [fillP] at h; cases h; exact .refl; all_goals nofun

end Verif.Defaults
