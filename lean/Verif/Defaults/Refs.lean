import Verif.Defaults.Paths
/-!
# References and paths: `fill` on a reference is `fillP` on the path it denotes
-/

namespace Verif.Defaults
open Verif Schema

/-- The reference denotes the path `p`: what it is based on exists, and of the rest everything exists or nothing, and in
the second case it can be created. -/
structure Means (doc : Val) (r : VRef) (p : VPath) : Prop where
  path : p = r.here ++ r.missing
  here : ∃ v, getPath? doc r.here = some v ∧ ∀ e ms, r.missing = e :: ms →
    (getElem? v e = none ∧ v.ty = e.containerTy) ∨ (getPath? v r.missing).isSome

theorem means_root (doc : Val) : Means doc .root [] := ⟨rfl, doc, rfl, by simp [VRef.root]⟩

theorem Means.exists {doc : Val} {r : VRef} {p : VPath} (h : Means doc r p) : refExists doc r = hasPath doc p := by
  obtain ⟨v, hv, -⟩ := h.here
  simp [refExists, hv, hasPath, h.path, getPath?_append]

theorem Means.value {doc : Val} {r : VRef} {p : VPath} (h : Means doc r p) : valueAt doc r = getPath? doc p := by
  unfold valueAt
  rw [h.exists]
  obtain ⟨v, hv, -⟩ := h.here
  have hp : getPath? doc p = getPath? v r.missing := by rw [h.path, getPath?_append, hv]; rfl
  simp only [hasPath, refRead, hv, hp]
  cases hm : getPath? v r.missing with
  | none => rfl
  | some w => rw [getPath_some hm]; rfl

theorem Means.assign {doc : Val} {r : VRef} {p : VPath} (h : Means doc r p) (x : Val) : refAssign doc r x = setPath doc p x := by
  obtain ⟨v, hv, -⟩ := h.here
  obtain ⟨here, ms⟩ := r
  have hp := h.path
  simp only at hp hv
  subst hp
  rw [setPath_append ms x hv]
  simp only [refAssign, onRefCreate, hv]
  cases ms with
  | nil => simp [setPath]
  | cons e ms =>
    simp only
    rcases getPathRef_create v (e :: ms) x with ⟨v', w, h1, h2, h3⟩ | ⟨v', er, h1, h3⟩
    · simp only [h1, h2, h3]
      rfl
    · simp only [h1, h3]

theorem Means.below {doc : Val} {r : VRef} {p : VPath} (hw : doc.WF) (h : Means doc r p) {e : PathElem}
    (ht : missingOr e.containerTy (getPath? doc p) = true) :
    ∃ r', refAt doc r e none = (doc, .ok r') ∧ Means doc r' (p ++ [e]) := by
  obtain ⟨v, hv, hm⟩ := h.here
  obtain ⟨here, ms⟩ := r
  have hp := h.path
  simp only at hp hv hm
  subst hp
  rw [getPath?_append, hv] at ht
  simp only [Option.bind_some] at ht
  simp only [refAt, hv]
  -- a lookup in the value `w` that the path leads to
  have look : ∀ (pre : VPath) (w : Val), getPath? doc pre = some w → w.ty = e.containerTy →
      ∃ r', getRefElem w e none = (w, .ok r') ∧ Means doc (VRef.under pre r') (pre ++ [e]) := by
    intro pre w hpre ht'
    simp only [getRefElem]
    rw [if_pos (.inr ht')]
    by_cases hg : (getElem? w e).isSome
    · rw [if_pos hg]
      obtain ⟨c, hc⟩ := Option.isSome_iff_exists.1 hg
      refine ⟨_, rfl, ⟨by simp [VRef.under], c, ?_, by simp [VRef.under]⟩⟩
      simp [VRef.under, getPath?_append, hpre, getPath?, hc]
    · rw [if_neg hg]
      refine ⟨_, rfl, ⟨by simp [VRef.under], w, by simpa [VRef.under] using hpre, ?_⟩⟩
      intro e' ms' he
      simp only [VRef.under, List.cons.injEq] at he
      obtain ⟨rfl, rfl⟩ := he
      exact .inl ⟨by simpa using hg, ht'⟩
  cases ms with
  | nil =>
    simp only [getPath?, missingOr, decide_eq_true_eq] at ht
    obtain ⟨r', h1, h2⟩ := look here v hv ht
    rw [h1]
    simp only [storeAt_same hw hv, List.append_nil]
    exact ⟨_, rfl, h2⟩
  | cons m ms =>
    cases hg : getPath? v (m :: ms) with
    | some w =>
      rw [hg] at ht
      simp only [missingOr, decide_eq_true_eq] at ht
      have hw' : getPath? doc (here ++ m :: ms) = some w := by rw [getPath?_append, hv]; exact hg
      obtain ⟨r', h1, h2⟩ := look _ w hw' ht
      simp only [hg, h1]
      rw [storeAt_same (getPath?_wf hw hv) hg, storeAt_same hw hv]
      exact ⟨_, rfl, h2⟩
    | none =>
      rcases hm m ms rfl with ⟨h1, h2⟩ | h1
      · simp only [hg]
        refine ⟨⟨here, m :: ms ++ [e]⟩, rfl, ⟨by simp, v, hv, ?_⟩⟩
        intro e' ms' he
        simp only [List.cons_append, List.cons.injEq] at he
        rw [← he.1]
        exact .inl ⟨h1, h2⟩
      · rw [hg] at h1; cases h1

theorem Means.step {b c d : Val} {r : VRef} {p s : VPath} (h : Means b r p) (hf : Free b (p ++ s))
    (hs : setPath b (p ++ s) d = (c, none)) : Means c r p := by
  obtain ⟨v, hv, -⟩ := h.here
  obtain ⟨v', hv', -⟩ := step_keeps hf hs r.here v hv
  refine ⟨h.path, v', hv', ?_⟩
  intro e ms he
  right
  have h1 := setPath_below hs []
  rw [List.append_nil, getPath?_append, h.path, getPath?_append, hv'] at h1
  simp only [Option.bind_some] at h1
  cases hx : getPath? v' r.missing with
  | none => rw [hx] at h1; cases h1
  | some w => rfl

theorem Means.steps {get : Bytes → Out Val} {s a b : Val} {r : VRef} {p : VPath} (hst : Steps (Below get s p) a b) (h : Means a r p) :
    Means b r p := by
  induction hst with
  | refl => exact h
  | step _ h2 _ h3 h4 ih =>
    obtain ⟨q, rfl, _⟩ := h3
    exact ih.step h2 h4

/-! ## Schemas that are well formed -/

/-- The loader has well-formed values only. -/
def GoodLoader (get : Bytes → Out Val) : Prop := ∀ u s, get u = .ok s → s.WF

theorem wf_get {m : List (Bytes × Val)} {k : Bytes} {v : Val} (h : (Val.map m).WF) (hv : AMap.get m k = some v) : v.WF :=
  getElem?_wf (e := .key k) h (by simpa [getElem?, getKey?] using hv)

theorem wf_mem {m : List (Bytes × Val)} {x : Bytes × Val} (h : (Val.map m).WF) (hx : x ∈ m) : x.2.WF := by
  rw [Val.WF] at h
  exact WFMap_iff.1 h.2 x hx

theorem wf_item {l : List Val} {x : Val} (h : (Val.list l).WF) (hx : x ∈ l) : x.WF := by
  rw [Val.WF] at h
  exact WFList_iff.1 h x hx

theorem defaultAt_wf {get : Bytes → Out Val} (hg : GoodLoader get) {s d : Val} {p : VPath} (h : DefaultAt get s p d) (hs : s.WF) : d.WF := by
  induction h with
  | own h => exact wf_get hs h
  | ref h h' _ ih => exact ih (hg _ _ h')
  | property h h' _ ih => exact ih (wf_mem (wf_get hs h) h')
  | item h h' _ _ ih => exact ih (wf_item (wf_get hs h) (List.mem_of_getElem? h'))
  | items h _ _ ih => exact ih (wf_get hs h)
  | member _ h h' _ ih => exact ih (wf_item (wf_get hs h) h')

theorem steps_wf {get : Bytes → Out Val} (hg : GoodLoader get) {s a b : Val} {p : VPath} (hs : s.WF) (h : Steps (Below get s p) a b)
    (ha : a.WF) : b.WF := h.wf (fun _ _ ⟨_, _, hd⟩ => defaultAt_wf hg hd hs) ha

/-! ## The two agree -/

theorem open_of_means {doc : Val} {r : VRef} {p : VPath} (h : Means doc r p) (hm : NoMaxIndex p) : Open doc p := by
  obtain ⟨v, hv, hc⟩ := h.here
  cases hs : getPath? doc p with
  | some w => exact open_some hs
  | none =>
  have hn : getPath? v r.missing = none := by
    rw [h.path, getPath?_append, hv] at hs
    exact hs
  clear hs
  obtain ⟨here, ms⟩ := r
  have hp := h.path
  simp only at hp hv hc hn
  cases ms with
  | nil => cases hn
  | cons e ms =>
    have hm' : NoMaxIndex (e :: ms) := fun hx => hm (by rw [hp]; exact List.mem_append_right _ hx)
    have he : e ≠ .index 0xFFFFFFFF := fun h => hm' (by simp [h])
    obtain ⟨h1, h2⟩ : getElem? v e = none ∧ v.ty = e.containerTy := by
      rcases hc e ms rfl with h | h
      · exact h
      · rw [hn] at h; cases h
    have ho : Open doc (here ++ [e]) := open_below (open_some hv) (by rw [hv]; simpa [missingOr] using h2) he
    have hz : getPath? doc (here ++ [e]) = none := by simp [getPath?_append, hv, getPath?, h1]
    -- from a missing place to all places below it
    have go : ∀ (ms pre : VPath), NoMaxIndex ms → Open doc pre → getPath? doc pre = none → Open doc (pre ++ ms) := by
      intro ms
      induction ms with
      | nil => intro pre _ ho _; simpa using ho
      | cons f ms ih =>
        intro pre hf ho hz
        have := ih (pre ++ [f]) (fun h => hf (by simp [h])) (open_below ho (by rw [hz]; rfl) (fun h => hf (by simp [h])))
          (by rw [getPath?_append, hz]; rfl)
        simpa using this
    have := go ms _ (fun h => hm' (by simp [h])) ho hz
    rw [hp]
    simpa using this

theorem andThen_congr {r : Run} {f g : Val → Run} (h : ∀ d, r = some (d, .ok ()) → f d = g d) : andThen r f = andThen r g := by
  unfold andThen
  split
  · rename_i doc u; exact h doc rfl
  · rfl

theorem forEach_congr {α : Type} {R : Val → Prop} {f g : Val → α → Run} {as : List α}
    (h : ∀ a ∈ as, ∀ d, R d → f d a = g d a ∧ ∀ d', g d a = some (d', .ok ()) → R d') :
    ∀ d, R d → forEach f d as = forEach g d as := by
  induction as with
  | nil => intro d _; rfl
  | cons a as ih =>
    intro d hd
    obtain ⟨h1, h2⟩ := h a (List.mem_cons_self ..) d hd
    unfold forEach
    rw [h1]
    exact andThen_congr fun d' hd' => ih (fun a ha => h a (List.mem_cons_of_mem _ ha)) d' (h2 d' hd')

theorem noMax_snoc {p : VPath} {e : PathElem} (h : NoMaxIndex p) (he : e ≠ .index 0xFFFFFFFF) : NoMaxIndex (p ++ [e]) := by
  intro hx
  rcases List.mem_append.1 hx with hx | hx
  · exact h hx
  · exact he (List.mem_singleton.1 hx).symm

theorem means_steps_below {get : Bytes → Out Val} {s a b : Val} {r : VRef} {p : VPath} {e : PathElem}
    (hst : Steps (Below get s (p ++ [e])) a b) (h : Means a r p) : Means b r p := by
  induction hst with
  | refl => exact h
  | step _ h2 _ h3 h4 ih =>
    obtain ⟨q, rfl, _⟩ := h3
    rw [List.append_assoc] at h2 h4
    exact ih.step h2 h4

theorem forEach_inv {α : Type} {Q : Val → Prop} {f : Val → α → Run} {as : List α}
    (h : ∀ a ∈ as, ∀ d, Q d → ∀ d', f d a = some (d', .ok ()) → Q d') :
    ∀ d, Q d → ∀ d', forEach f d as = some (d', .ok ()) → Q d' := by
  induction as with
  | nil => intro d h0 d' hd; cases hd; exact h0
  | cons y ys ih =>
    intro d h0 d' hd
    unfold forEach at hd
    rcases andThen_some hd with ⟨d1, h3, h4⟩ | ⟨_, h3⟩
    · exact ih (fun z hz => h z (List.mem_cons_of_mem _ hz)) d1 (h y (List.mem_cons_self ..) d h0 d1 h3) d' h4
    · exact absurd rfl h3

theorem fill_eq {get : Bytes → Out Val} (hg : GoodLoader get) (n : Nat) : ∀ (s doc : Val) (r : VRef) (p : VPath), Means doc r p →
    NoMaxIndex p → doc.WF → s.WF → fill get n s doc r = fillP get n s doc p := by
  induction n with
  | zero => intro s doc r p _ _ _ _; rw [fill, fillP]
  | succ n ih =>
    intro s doc r p hm hi hd hs
    cases s with
    | map m =>
      rw [fill, fillP]
      have h1 : atRef get m doc (fun s => fill get n s doc r) = atRef get m doc (fun s => fillP get n s doc p) ∧
          ∀ d, atRef get m doc (fun s => fillP get n s doc p) = some (d, .ok ()) → Means d r p ∧ d.WF := by
        rcases atRef_cases get m doc with ⟨_, e⟩ | ⟨u, s, hr, hu, e⟩ | ⟨u, o, _, _, ho, e⟩ <;> rw [e, e]
        · exact ⟨rfl, fun d h => by cases h; exact ⟨hm, hd⟩⟩
        · refine ⟨ih s doc r p hm hi hd (hg u s hu), fun d h => ?_⟩
          have st := fillP_steps get n s doc p (open_of_means hm hi) _ h
          exact ⟨Means.steps st hm, steps_wf hg (hg u s hu) st hd⟩
        · exact ⟨rfl, fun d h => by cases h; exact absurd rfl ho⟩
      rw [h1.1]
      refine andThen_congr fun doc1 h => ?_
      obtain ⟨hm1, hd1⟩ := h1.2 doc1 h
      clear h h1
      rw [hm1.value]
      cases hdf : ownDefault m (getPath? doc1 p) with
      | some d => dsimp only; rw [hm1.assign]
      | none =>
        dsimp only
        have good : ∀ (e : PathElem) (t : Val), t.WF → e ≠ .index 0xFFFFFFFF → ∀ d,
            (Means d r p ∧ d.WF ∧ missingOr e.containerTy (getPath? d p) = true) →
            below d r e (fill get n t) = fillP get n t d (p ++ [e]) ∧ ∀ d', fillP get n t d (p ++ [e]) = some (d', .ok ()) →
              (Means d' r p ∧ d'.WF ∧ missingOr e.containerTy (getPath? d' p) = true) := by
          intro e t ht he d ⟨g1, g2, g3⟩
          obtain ⟨r', g4, g5⟩ := g1.below g2 g3
          have hi' := noMax_snoc hi he
          constructor
          · unfold below
            rw [g4]
            exact ih t d r' _ g5 hi' g2 ht
          · intro d' hd'
            have st := fillP_steps get n t d _ (open_of_means g5 hi') _ hd'
            exact ⟨means_steps_below st g1, steps_wf hg ht st g2, missingOr_steps st g3⟩
        have h2 : atProperties m doc1 (getPath? doc1 p) (fun doc q => below doc r (.key q.1) (fill get n q.2)) =
            atProperties m doc1 (getPath? doc1 p) (fun doc x => fillP get n x.2 doc (p ++ [.key x.1])) ∧
            ∀ d, atProperties m doc1 (getPath? doc1 p) (fun doc x => fillP get n x.2 doc (p ++ [.key x.1])) = some (d, .ok ()) →
              Means d r p ∧ d.WF := by
          rcases atProperties_cases m doc1 (getPath? doc1 p) with ⟨ps, a1, a2, e⟩ | ⟨_, e⟩ | ⟨_, _, _, _, _, e⟩ <;> rw [e, e]
          · have hl : ∀ y ∈ ps, y.2.WF := fun y hy => wf_mem (wf_get hs a2) hy
            refine ⟨forEach_congr (R := fun d => Means d r p ∧ d.WF ∧ missingOr .map (getPath? d p) = true) (fun y hy d hd => good (.key y.1) y.2 (hl y hy) (by simp) d hd) doc1 ⟨hm1, hd1, a1⟩, fun d h => ?_⟩
            have := forEach_inv (Q := fun d => Means d r p ∧ d.WF ∧ missingOr .map (getPath? d p) = true) (fun y hy d hd => (good (.key y.1) y.2 (hl y hy) (by simp) d hd).2) doc1 ⟨hm1, hd1, a1⟩ d h
            exact ⟨this.1, this.2.1⟩
          · exact ⟨rfl, fun d h => by cases h; exact ⟨hm1, hd1⟩⟩
          · exact ⟨rfl, nofun⟩
        rw [h2.1]
        refine andThen_congr fun doc2 h => ?_
        obtain ⟨hm2, hd2⟩ := h2.2 doc2 h
        clear h h2
        rw [hm2.value]
        have h3 : atItems m doc2 (getPath? doc2 p) (fun doc q => below doc r (.index q.2) (fill get n q.1)) =
            atItems m doc2 (getPath? doc2 p) (fun doc x => fillP get n x.1 doc (p ++ [.index x.2])) ∧
            ∀ d, atItems m doc2 (getPath? doc2 p) (fun doc x => fillP get n x.1 doc (p ++ [.index x.2])) = some (d, .ok ()) →
              Means d r p ∧ d.WF := by
          rcases atItems_cases m doc2 (getPath? doc2 p) with ⟨v, a1, a2, e⟩ | ⟨_, e⟩ <;> rw [e, e]
          · have hl : ∀ y ∈ itemsOf v, y.1.WF ∧ PathElem.index y.2 ≠ .index 0xFFFFFFFF := by
              intro y hy
              refine ⟨?_, ofItems_noMax hy⟩
              rcases mem_itemsOf hy with ⟨l, j, rfl, hj, _⟩ | ⟨_, h, _⟩
              · exact wf_item (wf_get hs a2) (List.mem_of_getElem? hj)
              · rw [h]; exact wf_get hs a2
            refine ⟨forEach_congr (R := fun d => Means d r p ∧ d.WF ∧ missingOr .list (getPath? d p) = true) (fun y hy d hd => good (.index y.2) y.1 (hl y hy).1 (hl y hy).2 d hd) doc2 ⟨hm2, hd2, a1⟩, fun d h => ?_⟩
            have := forEach_inv (Q := fun d => Means d r p ∧ d.WF ∧ missingOr .list (getPath? d p) = true) (fun y hy d hd => (good (.index y.2) y.1 (hl y hy).1 (hl y hy).2 d hd).2) doc2 ⟨hm2, hd2, a1⟩ d h
            exact ⟨this.1, this.2.1⟩
          · exact ⟨rfl, fun d h => by cases h; exact ⟨hm2, hd2⟩⟩
        rw [h3.1]
        refine andThen_congr fun doc3 h => ?_
        obtain ⟨hm3, hd3⟩ := h3.2 doc3 h
        refine forEach_congr (R := fun d => Means d r p ∧ d.WF) (fun y hy d hd => ?_) doc3 ⟨hm3, hd3⟩
        have hy' : y.WF := by
          simp only [List.mem_append] at hy
          rcases hy with (hy | hy) | hy <;> obtain ⟨l, h4, h5⟩ := mem_membersOf hy <;> exact wf_item (wf_get hs h4) h5
        refine ⟨ih y d r p hd.1 hi hd.2 hy', fun d' hd' => ?_⟩
        have st := fillP_steps get n y d p (open_of_means hd.1 hi) _ hd'
        exact ⟨Means.steps st hd.1, steps_wf hg hy' st hd.2⟩
    | _ => rw [fill, fillP] <;> nofun

end Verif.Defaults
