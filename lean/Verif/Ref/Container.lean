import Verif.Ref.Change
/-!
# What happens to values when elements are added or taken out
-/

namespace Verif.Ref
open Verif

/-- What is elsewhere is as before. -/
theorem Local.keep {st st' : St} (hi : Inv0 st) (hi' : Inv0 st') {t : Nat} (h : Local st st' t) {w : Val} {x : Slot} (hw : SlotIs (content st) w x)
    (hl : ∀ a, x.sto = some a → st.liveS a) (hl' : ∀ a, x.sto = some a → st'.liveS a)
    (hh : ∀ a b, x.sto = some a → (st.obj t).home = some b → ¬ Below st a b) (hs : ∀ a b, x.sto = some a → (st.sl t).sto = some b → ¬ Below st a b) :
    SlotIs (content st') w x :=
  is_frame hi hi' hw hl hl' fun a b h1 h2 h3 => h.cells b (h2.alive hi (hl a h1)) h3 (fun h4 => hh a b h1 h4 h2) (fun h4 => hs a b h1 h4 h2)

theorem Local.trans {st st1 st2 : St} {t : Nat} (hi : Inv0 st) (h1 : Local st st1 t) (h2 : Local st1 st2 t) (f1 : Fr st st1) (f2 : Fr st1 st2) (ht : st.live t) (ht1 : st1.live t)
    (hs : ∀ s, (st1.sl t).sto = some s → (st.sl t).sto = some s ∨ st.nStore ≤ s) : Local st st2 t where
  slots z hz hz2 hzt hzs := by
    have hb := hi.objBound z hz
    have hz1 := (f2.old z (by have := f1.nObj; omega) hz2).1
    have hh := (f1.old z hb hz1).2
    rw [h2.slots z hz1 hz2 hzt, h1.slots z hz hz1 hzt hzs]
    intro s h3 h4
    rw [hh] at h4
    rcases hs s h3 with h5 | h5
    · exact hzs s h5 h4
    · have := hi.storeBound s (hi.home z s hz h4).1
      omega
  cells s hls hls2 hh hss := by
    have hb := hi.storeBound s hls
    have hls1 := (f2.kind s (by have := f1.nStore; omega) hls2).1
    rw [h2.cells s hls1 hls2, h1.cells s hls hls1 hh hss]
    · rw [(f1.old t (hi.objBound t ht) ht1).2]; exact hh
    · intro h3
      rcases hs s h3 with h4 | h4
      · exact hss h4
      · omega

/-! ## Elements taken out -/

theorem Dropped.content_other {st st' : St} {s : Nat} {c : Cell} {D : List Nat} (h : Dropped st st' s c D) {b : Nat} (hb' : st'.liveS b) (hbs : b ≠ s) :
    content st' b = content st b := by
  refine content_congr (h.cells b hbs) fun e he => ?_
  rw [St.sl, (h.obj e (h.inv.elems b e hb' (by rw [St.el, h.cells b hbs]; exact he)).1).2.2]

theorem Dropped.content_self {st st' : St} {s : Nat} {c : Cell} {D : List Nat} (h : Dropped st st' s c D) : content st' s = contentOf st.sl c := by
  have : contentOf st'.sl c = contentOf st.sl c := by
    have hk : ∀ e ∈ c.elems, st'.sl e = st.sl e := fun e he => by
      rw [St.sl, (h.obj e (h.inv.elems s e h.liveS (by rw [St.el, h.cell]; exact he)).1).2.2]
    cases c with
    | list cap es => rw [Cell.elems] at hk; rw [contentOf, contentOf, List.map_congr_left hk]
    | map m => rw [contentOf, contentOf, List.map_congr_left fun p hp => by rw [hk p.2 (List.mem_map.2 ⟨p, hp, rfl⟩)]]
    | _ => rfl
  rw [content, h.cell, this]

theorem Dropped.loc {st st' : St} {s t : Nat} {c : Cell} {D : List Nat} (h : Dropped st st' s c D) (hts : (st.sl t).sto = some s) : Local st st' t where
  slots z _ hz' _ _ := by rw [St.sl, (h.obj z hz').2.2]
  cells b _ hb' _ hbs := h.content_other hb' (by rintro rfl; exact hbs hts)

/-- The elements that are still there. -/
theorem Dropped.keep {st st' : St} {s : Nat} {c : Cell} {D : List Nat} (hi : Inv0 st) (hn : ¬ Cyc st) (hs : st.liveS s) (h : Dropped st st' s c D) (hsub : ∀ x ∈ c.elems, x ∈ st.el s) :
    ∀ x ∈ c.elems, ∀ v, SlotIs (content st) v (st.sl x) → SlotIs (content st') v (st.sl x) := by
  intro x hx v hv
  have hm := hsub x hx
  have hl := (hi.elems s x hs hm).1
  have hl' := (h.inv.elems s x h.liveS (by rw [St.el, h.cell]; exact hx)).1
  have he : st'.sl x = st.sl x := by rw [St.sl, (h.obj x hl').2.2]
  refine is_frame hi h.inv.toInv0 hv (fun a => hi.stoLive x a hl) (fun a => by rw [← he]; exact h.inv.stoLive x a hl') fun a b ha hb hb' => ?_
  refine h.content_other hb' ?_
  rintro rfl
  exact hn ⟨b, a, ⟨hs, x, hm, ha⟩, hb⟩

theorem Dropped.bk {st st' : St} {s : Nat} {c : Cell} {D : List Nat} (hs : st.liveS s) (h : Dropped st st' s c D) (hi : Inv0 st) (hsub : ∀ x ∈ c.elems, x ∈ st.el s) : Bk st st' where
  toFr := h.fr
  edge a b he := by
    obtain ⟨h1, e, h2, h3⟩ := he
    have hl := (h.inv.elems a e h1 h2).1
    have hk := (h.obj e hl).2.2
    rw [St.sl, hk] at h3
    left
    by_cases has : a = s
    · subst has
      rw [St.el, h.cell] at h2
      exact ⟨hs, e, hsub e h2, h3⟩
    · rw [St.el, h.cells a has] at h2
      refine ⟨?_, e, h2, h3⟩
      have := (h.inv.elems a e h1 (by rw [St.el, h.cells a has]; exact h2)).2.2
      rw [hk] at this
      exact (hi.home e a (h.obj e hl).1 this).1

/-- Elements of `t` were taken out. -/
theorem drop_is {st : St} (hi : Inv st) (hn : ¬ Cyc st) {t s : Nat} {c : Cell} {D : List Nat} (ht : Value st t) (hts : (st.sl t).sto = some s)
    (hfit : ∀ sl, Fits sl (st.store s).cell → Fits sl c) (hok : CellOk c) (hD : ∀ x, x ∈ D → x ∈ st.el s)
    (hel : ∀ x, x ∈ c.elems ↔ x ∈ st.el s ∧ x ∉ D) (hnd : c.elems.Nodup) :
    ∃ st', drop s c D st = .ok () st' ∧ Inv st' ∧ Bk st st' ∧ st'.live t ∧ st'.sl t = st.sl t ∧ st'.liveS s ∧ (st'.store s).cell = c ∧ Local st st' t ∧
      content st' s = contentOf st.sl c ∧ ∀ x ∈ c.elems, ∀ v, SlotIs (content st) v (st.sl x) → SlotIs (content st') v (st.sl x) := by
  have hs := hi.stoLive t s ht.1 hts
  rcases drop_spec hi hs hfit hok hD hel hnd with ⟨_, h⟩ | ⟨st', h1, h2⟩
  · exact absurd h hn
  · have hl := h2.owner hn t ht.1 hts
    have hsub : ∀ x ∈ c.elems, x ∈ st.el s := fun x hx => ((hel x).1 hx).1
    exact ⟨st', h1, h2.inv, h2.bk hs hi.toInv0 hsub, hl, by rw [St.sl, (h2.obj t hl).2.2], h2.liveS, h2.cell, h2.loc hts, h2.content_self, h2.keep hi.toInv0 hn hs hsub⟩

/-! ## Elements added -/

/-- Elements were added to `s`. -/
structure Grew (st st' : St) (s : Nat) : Prop where
  inv : Inv st'
  fr : Fr st st'
  obj : ∀ z, st.live z → z ∉ st.el s → st'.obj z = st.obj z
  store : ∀ y, y ≠ s → st'.store y = st.store y
  liveS : st'.liveS s

theorem Grew.content_other {st st' : St} {s : Nat} (hi : Inv0 st) (hs : st.liveS s) (h : Grew st st' s) {b : Nat} (hb : st.liveS b) (hbs : b ≠ s) : content st' b = content st b := by
  refine content_congr (by rw [h.store b hbs]) fun e he => ?_
  have hel := hi.elems b e hb he
  rw [St.sl, h.obj e hel.1 fun hm => ?_]
  have := (hi.elems s e hs hm).2.2
  rw [hel.2.2] at this
  cases this
  exact hbs rfl

theorem Grew.loc {st st' : St} {s t : Nat} (hi : Inv0 st) (hs : st.liveS s) (h : Grew st st' s) (hts : (st.sl t).sto = some s) : Local st st' t where
  slots z hz _ _ hzs := by rw [St.sl, h.obj z hz fun hm => hzs s hts (hi.elems s z hs hm).2.2]
  cells b hb _ _ hbs := h.content_other hi hs hb (by rintro rfl; exact hbs hts)

/-- Contents in which `s` does not occur. -/
theorem Grew.keep {st st' : St} {s : Nat} (hi : Inv0 st) (hs : st.liveS s) (h : Grew st st' s) {v : Val} {x : Slot} (hv : SlotIs (content st) v x)
    (hl : ∀ a, x.sto = some a → st.liveS a) (hx : ∀ a, x.sto = some a → ¬ Below st a s) : SlotIs (content st') v x := by
  refine is_frame hi h.inv.toInv0 hv hl (fun a ha => ?_) fun a b ha hb _ => ?_
  · by_cases e : a = s
    · rw [e]; exact h.liveS
    · rw [St.liveS, h.store a e]; exact hl a ha
  · exact h.content_other hi hs (hb.alive hi (hl a ha)) (by rintro rfl; exact hx a ha hb)

theorem Grew.elems {st st' : St} {s : Nat} (hi : Inv0 st) (hn : ¬ Cyc st) (hs : st.liveS s) (h : Grew st st' s) :
    ∀ x ∈ st.el s, ∀ v, SlotIs (content st) v (st.sl x) → SlotIs (content st') v (st.sl x) := by
  intro x hx v hv
  exact h.keep hi hs hv (fun a => hi.stoLive x a (hi.elems s x hs hx).1) fun a ha hb => hn ⟨s, a, ⟨hs, x, hx, ha⟩, hb⟩

theorem Extends.grew {st st' : St} {s cap : Nat} {es : List Nat} {slots : List Slot} (hi : Inv0 st) (hs : st.liveS s) (hc : (st.store s).cell = .list cap es) (hE : Extends st s es slots st') :
    Grew st st' s := by
  have hel : st.el s = es := by rw [St.el, hc]; rfl
  obtain ⟨cap', es', h1, _⟩ := hE.cell
  refine ⟨hE.inv, ?_, fun z hz hm => hE.keep z hz (by rw [← hel]; exact hm), hE.store, hE.liveS⟩
  exact {
    env := hE.env
    holds := hE.holds
    nObj := hE.nObj
    nStore := Nat.le_of_eq hE.nStore.symm
    old := fun y hy hl => by
      obtain ⟨h5, h6⟩ := hE.old y hy hl
      exact ⟨h5, by rw [h6]⟩
    top := fun y hy hh => by
      have : y ∉ es := by rw [← hel]; intro hm; rw [(hi.elems s y hs hm).2.2] at hh; cases hh
      rw [St.live, hE.keep y hy this]; exact hy
    new := fun y hy hl => by rw [hE.new y hy hl]; simp
    kind := fun a ha hl => by
      by_cases e : a = s
      · subst e
        exact ⟨hs, fun sl h => by rw [hc] at h; rw [h1]; exact fits_list sl h⟩
      · rw [St.liveS, hE.store a e] at hl
        rw [hE.store a e]
        exact ⟨hl, fun _ h => h⟩
    stays := fun y hy hl => by rw [(hE.old y (hi.objBound y hy) hl).2]; exact .refl _ }

/-- A list with more elements. -/
theorem extend_is {st : St} (hi : Inv st) (hn : ¬ Cyc st) (grow : Nat → Nat → Nat) {t s cap : Nat} {es : List Nat} {vs : List Val} {slots : List Slot} {ws : List Val} {st' : St} (ht : Value st t)
    (hts : st.sl t = .list s) (hc : (st.store s).cell = .list cap es) (hv : AllIs (content st) vs (es.map st.sl)) (hg : ∀ x ∈ slots, Good st x)
    (hst' : st' = st.extend grow s cap es slots)
    (hw : Grew st st' s → AllIs (content st') ws slots) :
    Grew st st' s ∧ Extends st s es slots st' ∧ st'.obj t = st.obj t ∧ Is st' t (.list (vs ++ ws)) := by
  obtain ⟨hs, _⟩ := cell_list hi.toInv0 ht.1 hts
  have hE := extend_extends hi grow hs hc hg
  have hel : st.el s = es := by rw [St.el, hc]; rfl
  obtain ⟨cap', es', g1, g2, _⟩ := extend_elems grow (st := st) (s := s) (cap := cap) (es := es) (slots := slots) (fun x hx => hi.objBound x (hi.elems s x hs (by rw [hel]; exact hx)).1)
  rw [← hst'] at hE g1 g2
  have hG := hE.grew hi.toInv0 hs hc
  have hobj : st'.obj t = st.obj t := hG.obj t ht.1 fun hm => hn ⟨s, s, ⟨hs, t, hm, by rw [hts]; rfl⟩, .refl s⟩
  refine ⟨hG, hE, hobj, ?_⟩
  rw [Is, St.sl, hobj, ← St.sl, hts, SlotIs]
  refine ⟨s, es.map st.sl ++ slots, rfl, by rw [content, g1, contentOf, g2], allIs_append (allIs_mono hv ?_) (hw hG)⟩
  intro x hx v h
  obtain ⟨e, he, rfl⟩ := List.mem_map.1 hx
  exact hG.elems hi.toInv0 hn hs e (by rw [hel]; exact he) v h

/-- A map with another entry. -/
theorem insert_is {st : St} (hi : Inv st) (hn : ¬ Cyc st) {t s : Nat} {m : List (Bytes × Nat)} {mv : List (Bytes × Val)} {k : Bytes} (ht : Value st t)
    (hts : st.sl t = .map s) (hc : (st.store s).cell = .map m) (hv : MapIs (content st) mv (m.map fun p => (p.1, st.sl p.2))) (hk : AMap.get m k = none) :
    ∃ st', insert s m k st = .ok st.nObj st' ∧ Grew st st' s ∧ Bk st st' ∧ st'.obj t = st.obj t ∧ elem? st' t (.key k) = some st.nObj ∧ Is st' t (.map (AMap.set mv k .null)) := by
  obtain ⟨hs, _⟩ := cell_map hi.toInv0 ht.1 hts
  obtain ⟨st', h1, h2, h3, h4, h5⟩ := insert_adds hi hn ht hts hc hk
  have hel : st.el s = m.map (·.2) := by rw [St.el, hc]; rfl
  have hG : Grew st st' s := by
    refine ⟨h2.inv, h2.bk.toFr, fun z hz _ => h4 z hz, fun y hy => ?_, ?_⟩
    · rw [insert] at h1
      cases h1
      simp [St.setCell, St.new, hy]
    · exact h2.inv.stoLive t s (by rw [St.live, h4 t ht.1]; exact ht.1) (by rw [St.sl, h4 t ht.1, ← St.sl, hts]; rfl)
  refine ⟨st', h1, hG, h2.bk, h4 t ht.1, ?_, ?_⟩
  · unfold elem?
    rw [St.sl, h4 t ht.1, ← St.sl, hts]
    simp only [h5]
    exact AMap.get_set_self _ _ _
  · rw [Is, St.sl, h4 t ht.1, ← St.sl, hts, SlotIs]
    have hcont : content st' s = .map (AMap.set (m.map fun p => (p.1, st.sl p.2)) k .null) := by
      rw [content, h5, contentOf, set_map_snd]
      have : (m.map fun p => (p.1, st'.sl p.2)) = m.map fun p => (p.1, st.sl p.2) := List.map_congr_left fun p hp => by
        rw [St.sl, h4 p.2 (hi.elems s p.2 hs (by rw [hel]; exact List.mem_map.2 ⟨p, hp, rfl⟩)).1]
      rw [this, h3]
    refine ⟨s, _, rfl, hcont, mapIs_set (mapIs_mono hv ?_) k rfl⟩
    intro p hp v h
    obtain ⟨q, hq, rfl⟩ := List.mem_map.1 hp
    exact hG.elems hi.toInv0 hn hs q.2 (by rw [hel]; exact List.mem_map.2 ⟨q, hq, rfl⟩) v h

/-! ## The kind of a value -/

theorem is_index {c : Nat → Content} {v : Val} {x : Slot} (h : SlotIs c v x) (hn : x ≠ .null) (hl : ∀ s, x ≠ .list s) (i : UInt32) (w : Val) : setIndex v i w = (v, some .unexpectedType) := by
  cases v <;> rw [SlotIs] at h
  case null => exact absurd h hn
  case list => obtain ⟨s, _, h, _⟩ := h; exact absurd h (hl s)
  all_goals rfl

theorem is_key {c : Nat → Content} {v : Val} {x : Slot} (h : SlotIs c v x) (hn : x ≠ .null) (hl : ∀ s, x ≠ .map s) (k : Bytes) (w : Val) : setKey v k w = (v, some .unexpectedType) := by
  cases v <;> rw [SlotIs] at h
  case null => exact absurd h hn
  case map => obtain ⟨s, _, h, _⟩ := h; exact absurd h (hl s)
  all_goals rfl

theorem set_again {α : Type} (m : List (Bytes × α)) (k : Bytes) (a b : α) : AMap.set (AMap.set m k a) k b = AMap.set m k b := by
  induction m with
  | nil => simp [AMap.set]
  | cons p m ih =>
    obtain ⟨k', v⟩ := p
    rw [AMap.set, AMap.set]
    by_cases e : k' = k
    · simp [if_pos e, AMap.set]
    · simp only [if_neg e]
      by_cases h3 : keyLt k k' = true
      · simp [if_pos h3, AMap.set]
      · simp only [if_neg h3]
        rw [AMap.set]
        simp only [if_neg e, if_neg h3, ih]

/-- The storage `a` contains neither `t` nor its elements. -/
structure OutsideS (st : St) (a t : Nat) : Prop where
  live : st.liveS a
  home : ∀ h, (st.obj t).home = some h → ¬ Below st a h
  sto : ∀ h, (st.sl t).sto = some h → ¬ Below st a h

/-- Null becomes a container. -/
structure Opens (st st' : St) (t : Nat) (v : Val) : Prop where
  inv : Inv st'
  bk : Bk st st'
  live : st'.live t
  loc : Local st st' t
  is : Is st' t v
  sto : ∀ s, (st'.sl t).sto = some s → st.nStore ≤ s
  out : ∀ a, OutsideS st a t → OutsideS st' a t

theorem open_is {st : St} (hi : Inv st) (hn : ¬ Cyc st) {t : Nat} (ht : Value st t) (hnull : st.sl t = .null) {mk : Nat → Slot} {c : Cell} {v : Val} (h1 : c.elems = []) (h2 : CellOk c)
    (h3 : ∀ s, (mk s).plain = true ∧ (mk s).sto = some s ∧ Fits (mk s) c) (h4 : ∀ st', (st'.store st.nStore).cell = c → SlotIs (content st') v (mk st.nStore)) :
    ∃ st', initSlot t mk c st = .ok () st' ∧ Opens st st' t v ∧ st'.sl t = mk st.nStore ∧ (st'.store st.nStore).cell = c := by
  obtain ⟨g1, g2⟩ := initSlot_null hi ht.1 hnull h1 h2 h3
  obtain ⟨st1, g3, g4, g5⟩ := init_wrote hi hn ht h1 h2 h3
  rw [g3] at g1
  cases g1
  have hi1 := newStore_inv0 hi.toInv0 h1 h2
  refine ⟨_, g3, ⟨g4.inv, g2.bk, g4.live, g4.loc hi.toInv0, by rw [Is, g4.sl]; exact h4 _ g5, fun s h => ?_, fun a ha => ⟨?_, fun h hh hb => ?_, fun h hh hb => ?_⟩⟩, g4.sl, g5⟩
  · rw [g4.sl, (h3 _).2.1] at h
    cases h
    exact Nat.le_refl _
  · exact (newStore_live ..).2 (.inl ha.live)
  · rw [setSlot_home] at hh
    rcases below_setSlot_or hi1 ht.1 hb with h7 | ⟨k, h5, h6⟩
    · exact ha.home h hh (newStore_below h1 h7)
    · exact ha.home k h5 (newStore_below h1 h6)
  · rw [g4.sl, (h3 _).2.1] at hh
    cases hh
    rcases below_setSlot_or hi1 ht.1 hb with h | ⟨k, h5, h6⟩
    · have := hi.storeBound _ ((newStore_below h1 h).alive hi.toInv0 ha.live)
      omega
    · exact ha.home k h5 (newStore_below h1 h6)

theorem OutsideS.bk {st st' : St} {a t : Nat} (h : OutsideS st a t) (hi : Inv0 st) (ht : st.live t) (hb : Bk st st') (hsl : st'.sl t = st.sl t) :
    ∀ s, (st'.sl t).sto = some s → ¬ Below st' a s := fun s hs hbs => by
  rw [hsl] at hs
  exact h.sto s hs (hb.below hi hbs (hi.storeBound s (hi.stoLive t s ht hs)))

/-- `mkElem` returned `c`, the element `e` of `t`.  `v'` is the value of `t` now: writing `e` there is `setElem` on the value before. -/
structure MkElem (st st' : St) (t : Nat) (e : PathElem) (v : Val) (c : Nat) : Prop where
  inv : Inv st'
  bk : Bk st st'
  live : st'.live t
  loc : Local st st' t
  plain : (st'.sl t).plain = true
  sto : ∀ s, (st'.sl t).sto = some s → (st.sl t).sto = some s ∨ st.nStore ≤ s
  out : ∀ a, OutsideS st a t → ∀ s, (st'.sl t).sto = some s → ¬ Below st' a s
  elem : elem? st' t e = some c
  val : ∃ v', Is st' t v' ∧ ∀ w, setElem v e w = (putElem v' e w, none)

/-- It threw `err`, as does `setElem`, and left `t` as `setElem` does. -/
structure NoElem (st st' : St) (t : Nat) (e : PathElem) (v : Val) (err : Err) : Prop where
  inv : Inv st'
  bk : Bk st st'
  live : st'.live t
  loc : Local st st' t
  val : ∃ v', Is st' t v' ∧ ∀ w, setElem v e w = (v', some err)

theorem mkIn_is {st : St} (hi : Inv st) (hn : ¬ Cyc st) (grow : Nat → Nat → Nat) {t : Nat} {v : Val} (ht : Value st t) (hv : Is st t v) (hnull : st.sl t ≠ .null) (e : PathElem) :
    (∃ c st', mkIn grow t e st = .ok c st' ∧ MkElem st st' t e v c) ∨ ∃ err st', mkIn grow t e st = .thr err st' ∧ NoElem st st' t e v err := by
  rw [mkIn, bind_ok (run_plain ht.1 ht.2)]
  rw [Is] at hv
  have same : ∀ (c : Nat) (v' : Val), elem? st t e = some c → Is st t v' → (∀ w, setElem v e w = (putElem v' e w, none)) → MkElem st st t e v c := fun c v' h1 h2 h3 =>
    ⟨hi, .refl hi.toInv0, ht.1, .refl st t, ht.2, fun s h => .inl h, fun a ha => ha.bk hi.toInv0 ht.1 (.refl hi.toInv0) rfl, h1, v', h2, h3⟩
  cases hs : st.sl t with
  | list s =>
    cases e with
    | key k =>
      exact .inr ⟨_, st, rfl, hi, .refl hi.toInv0, ht.1, .refl st t, v, hv, is_key hv (by rw [hs]; simp) (by rw [hs]; simp) k⟩
    | index i =>
      obtain ⟨h1, cap, es, h2⟩ := cell_list hi.toInv0 ht.1 hs
      have hel : st.el s = es := by rw [St.el, h2]; rfl
      rw [hs] at hv
      obtain ⟨vs, rfl, hvs⟩ := is_list hv (xs := es.map st.sl) (by rw [content, h2]; rfl)
      have hlen : vs.length = es.length := by rw [(allIs_iff.1 hvs).1, List.length_map]
      simp only
      rw [bind_ok (run_load h1)]
      simp only [h2]
      by_cases hlt : i.toNat < es.length
      · rw [if_pos hlt]
        have hp := pick_spec ht h1 h2 i
        rw [List.getElem?_eq_getElem hlt] at hp
        refine .inl ⟨_, st, hp, same _ (.list vs) (by unfold elem?; simp only [hs, h2]; exact List.getElem?_eq_getElem hlt) (by rw [Is, hs]; exact hv) fun w => ?_⟩
        simp only [setElem, setIndex, setIndexList, putElem, hlen, if_pos hlt]
      · rw [if_neg hlt]
        by_cases hle : (i + 1).toNat ≤ es.length
        · have hrun : resize grow s (i + 1).toNat st = drop s (.list cap (es.take (i + 1).toNat)) (es.drop (i + 1).toNat) st := by
            rw [resize, bind_ok (run_load h1), h2]; simp only [if_pos hle]
          obtain ⟨st', g1, g2, g3, g4, g5, g6, g7, g8, g9, g10⟩ := drop_is hi hn ht (s := s) (by rw [hs]; rfl) (c := .list cap (es.take (i + 1).toNat)) (D := es.drop (i + 1).toNat)
              (fun sl h => by rw [h2] at h; exact fits_list sl h) trivial (fun x hx => by rw [hel]; exact List.mem_of_mem_drop hx)
              (fun x => by rw [hel]; exact take_drop_nodup (hel ▸ hi.nodup s h1) _ x)
              (List.Nodup.sublist (List.take_sublist _ _) (hel ▸ hi.nodup s h1))
          have hp := pick_spec (t := t) ⟨g4, by rw [g5]; exact ht.2⟩ g6 g7 i
          rw [List.getElem?_eq_none (by rw [List.length_take]; omega)] at hp
          refine .inr ⟨_, st', by rw [bind_ok (hrun.trans g1)]; exact hp, g2, g3, g4, g8, .list (vs.take (i + 1).toNat), ?_, fun w => ?_⟩
          · rw [Is, g5, hs, SlotIs]
            refine ⟨s, (es.take (i + 1).toNat).map st.sl, rfl, g9, ?_⟩
            rw [List.map_take]
            refine allIs_mono (allIs_take hvs _) fun x hx v h => ?_
            rw [← List.map_take] at hx
            obtain ⟨y, hy, rfl⟩ := List.mem_map.1 hx
            exact g10 y hy v h
          · have : (i + 1).toNat - es.length = 0 := by omega
            simp only [setElem, setIndex, setIndexList, hlen, if_neg hlt, this, List.replicate_zero, List.append_nil, List.length_take]
            rw [if_neg (by omega)]
        · have hb := bump hlt (by omega)
          generalize hst' : st.extend grow s cap es (List.replicate ((i + 1).toNat - es.length) .null) = st'
          have hrun : resize grow s (i + 1).toNat st = .ok () st' := by
            rw [resize, bind_ok (run_load h1), h2]; simp only [if_neg hle]; rw [run_modify, hst']
          obtain ⟨cap', es', x, h3, h4, h5, h6, h7, h8⟩ := extend_adds hi hn grow ht hs h2 ((i + 1).toNat - es.length) (by omega) (i := i) (by omega) hst'.symm
          obtain ⟨k1, k2, k3, k4⟩ := extend_is hi hn grow ht hs h2 hvs (slots := List.replicate ((i + 1).toNat - es.length) .null)
            (ws := List.replicate ((i + 1).toNat - es.length) .null) (fun x hx => by rw [List.eq_of_mem_replicate hx]; exact null_good st) hst'.symm fun _ => allIs_nulls _ _
          have hp := pick_spec h6 h5 h3 i
          have hix : i.toNat = es.length + ((i + 1).toNat - es.length) - 1 := by omega
          have hsl' : st'.sl t = .list s := by rw [St.sl, k3]; exact hs
          refine .inl ⟨x, st', by rw [bind_ok hrun, hp, hix, h4], h7.inv, h7.bk, h6.1, k1.loc hi.toInv0 h1 (by rw [hs]; rfl), h6.2, fun b hb => .inl (by rw [hsl'] at hb; rw [hs]; exact hb),
            fun a ha => ha.bk hi.toInv0 ht.1 h7.bk (by rw [hsl', hs]), ?_, _, k4, fun w => ?_⟩
          · unfold elem?
            rw [hsl']
            simp only [h3]
            rw [hix]; exact h4
          · simp only [setElem, setIndex, setIndexList, putElem, hlen, if_neg hlt]
            rw [List.take_of_length_le (by omega), if_pos (by rw [List.length_append, List.length_replicate, hlen]; omega)]
  | map s =>
    cases e with
    | index i =>
      exact .inr ⟨_, st, rfl, hi, .refl hi.toInv0, ht.1, .refl st t, v, hv, is_index hv (by rw [hs]; simp) (by rw [hs]; simp) i⟩
    | key k =>
      obtain ⟨h1, m, h2⟩ := cell_map hi.toInv0 ht.1 hs
      rw [hs] at hv
      obtain ⟨mv, rfl, hmv⟩ := is_map hv (xs := m.map fun p => (p.1, st.sl p.2)) (by rw [content, h2]; rfl)
      simp only
      rw [bind_ok (run_load h1)]
      simp only [h2]
      cases hg : AMap.get m k with
      | some x =>
        refine .inl ⟨x, st, rfl, same x (.map mv) (by unfold elem?; simp only [hs, h2]; exact hg) (by rw [Is, hs]; exact hv) fun w => rfl⟩
      | none =>
        obtain ⟨st', g1, g2, g3, g4, g5, g6⟩ := insert_is hi hn ht hs h2 hmv hg
        have hsl' : st'.sl t = .map s := by rw [St.sl, g4]; exact hs
        refine .inl ⟨_, st', g1, g2.inv, g3, by rw [St.live, g4]; exact ht.1, g2.loc hi.toInv0 h1 (by rw [hs]; rfl), by rw [hsl']; rfl,
          fun b hb => .inl (by rw [hsl'] at hb; rw [hs]; exact hb), fun a ha => ha.bk hi.toInv0 ht.1 g3 (by rw [hsl', hs]), g5, _, g6, fun w => ?_⟩
        simp only [setElem, setKey, putElem, set_again]
  | null => exact absurd hs hnull
  | _ =>
    cases e with
    | index i =>
      exact .inr ⟨_, st, rfl, hi, .refl hi.toInv0, ht.1, .refl st t, v, hv, is_index hv (by rw [hs]; simp) (by rw [hs]; simp) i⟩
    | key k =>
      exact .inr ⟨_, st, rfl, hi, .refl hi.toInv0, ht.1, .refl st t, v, hv, is_key hv (by rw [hs]; simp) (by rw [hs]; simp) k⟩

/-- `SetIndex`, `SetKey` without the assignment do what `setElem` does. -/
theorem mkElem_is {st : St} (hi : Inv st) (hn : ¬ Cyc st) (grow : Nat → Nat → Nat) {t : Nat} {v : Val} (ht : Value st t) (hv : Is st t v) (e : PathElem) :
    (∃ c st', mkElem grow t e st = .ok c st' ∧ MkElem st st' t e v c) ∨ ∃ err st', mkElem grow t e st = .thr err st' ∧ NoElem st st' t e v err := by
  by_cases hnull : st.sl t = .null
  · -- null becomes a container first
    have hvn : v = .null := is_null (by rw [Is, hnull] at hv; exact hv)
    subst hvn
    have key : ∀ (mk : Nat → Slot) (c : Cell) (v1 : Val), c.elems = [] → CellOk c → (∀ s, (mk s).plain = true ∧ (mk s).sto = some s ∧ Fits (mk s) c) → (∀ s, mk s ≠ .null) →
        asContainer t e st = initSlot t mk c st → (∀ st', (st'.store st.nStore).cell = c → SlotIs (content st') v1 (mk st.nStore)) → (∀ w, setElem .null e w = setElem v1 e w) →
        (∃ c st', mkElem grow t e st = .ok c st' ∧ MkElem st st' t e .null c) ∨ ∃ err st', mkElem grow t e st = .thr err st' ∧ NoElem st st' t e .null err := by
      intro mk c v1 h1 h2 h3 h4 h5 h6 h7
      obtain ⟨st1, g1, g2, g3, _⟩ := open_is hi hn ht hnull h1 h2 h3 h6
      have hval : Value st1 t := ⟨g2.live, by rw [g3]; exact (h3 _).1⟩
      have hsto : ∀ s, (st1.sl t).sto = some s → (st.sl t).sto = some s ∨ st.nStore ≤ s := fun s h => .inr (g2.sto s h)
      rcases mkIn_is g2.inv (fun h => hn (g2.bk.cyc hi.toInv0 h)) grow hval g2.is (by rw [g3]; exact h4 _) e with ⟨x, st2, k1, k2⟩ | ⟨err, st2, k1, k2⟩
      · refine .inl ⟨x, st2, by rw [mkElem, bind_ok (h5.trans g1)]; exact k1, k2.inv, g2.bk.trans k2.bk hi.toInv0, k2.live,
          g2.loc.trans hi.toInv0 k2.loc g2.bk.toFr k2.bk.toFr ht.1 g2.live hsto, k2.plain, fun s hs => ?_, fun a ha => k2.out a (g2.out a ha), k2.elem, ?_⟩
        · rcases k2.sto s hs with h | h
          · exact hsto s h
          · have := g2.bk.nStore; exact .inr (by omega)
        · obtain ⟨v', h8, h9⟩ := k2.val
          exact ⟨v', h8, fun w => by rw [h7, h9]⟩
      · refine .inr ⟨err, st2, by rw [mkElem, bind_ok (h5.trans g1)]; exact k1, k2.inv, g2.bk.trans k2.bk hi.toInv0, k2.live,
          g2.loc.trans hi.toInv0 k2.loc g2.bk.toFr k2.bk.toFr ht.1 g2.live hsto, ?_⟩
        obtain ⟨v', h8, h9⟩ := k2.val
        exact ⟨v', h8, fun w => by rw [h7, h9]⟩
    cases e with
    | index i =>
      refine key .list (.list 0 []) (.list []) rfl trivial (fun s => ⟨rfl, rfl, trivial⟩) (fun s => by simp) ?_ (fun st' h => ?_) fun w => rfl
      · rw [asContainer, bind_ok (run_plain ht.1 ht.2), hnull]
      · rw [SlotIs]; exact ⟨_, [], rfl, by rw [content, h]; rfl, rfl⟩
    | key k =>
      refine key .map (.map []) (.map []) rfl (by simp [CellOk, AMap.Sorted]) (fun s => ⟨rfl, rfl, trivial⟩) (fun s => by simp) ?_ (fun st' h => ?_) fun w => rfl
      · rw [asContainer, bind_ok (run_plain ht.1 ht.2), hnull]
      · rw [SlotIs]; exact ⟨_, [], rfl, by rw [content, h]; rfl, rfl⟩
  · have hrun : asContainer t e st = .ok () st := by
      rw [asContainer, bind_ok (run_plain ht.1 ht.2)]
      cases hs : st.sl t <;> first | exact absurd hs hnull | (cases e <;> rfl)
    rw [mkElem, bind_ok hrun]
    exact mkIn_is hi hn grow ht hv hnull e

end Verif.Ref
