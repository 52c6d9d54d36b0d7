import Verif.Ref.Write
/-!
# Creating what is missing
-/

namespace Verif.Ref
open Verif

/-- What has `t` in it is not in `t`. -/
theorem Reach.outside {st : St} (hi : Inv0 st) (hn : ¬ Cyc st) {t s : Nat} (hts : (st.sl t).sto = some s) (hs : st.liveS s) {a : Nat} (h : Reach st a t)
    (ha : Value st a) : a ∉ st.el s := by
  intro hm
  cases hb : (st.sl a).sto with
  | none =>
    cases h with
    | refl => rw [hts] at hb; cases hb
    | head h1 _ _ => rw [h1] at hb; cases hb
  | some b => exact hn ⟨s, b, ⟨hs, a, hm, hb⟩, h.deep hi ha hb hts⟩

/-- Elements were added to `s`, which `t` has; the way to `t` is still there. -/
theorem Reach.grow {st st' : St} (hi : Inv0 st) (hn : ¬ Cyc st) {t s : Nat} (hts : (st.sl t).sto = some s) (hs : st.liveS s)
    (hk : ∀ x, st.live x → x ∉ st.el s → st'.obj x = st.obj x) (hst : ∀ y, y ≠ s → st'.store y = st.store y) {a : Nat} (h : Reach st a t)
    (ha : Value st a) : Value st' a ∧ Reach st' a t ∧ st'.obj a = st.obj a := by
  have hnot := fun a => Reach.outside hi hn hts hs (a := a)
  induction h with
  | refl =>
    rename_i a
    have h1 := hk a ha.1 (hnot a (.refl a) ha)
    exact ⟨⟨by rw [St.live, h1]; exact ha.1, by rw [St.sl, h1]; exact ha.2⟩, .refl _, h1⟩
  | head h1 h2 h3 ih =>
    rename_i a b y t
    have hy := elem_value hi ha h1 h2
    have h4 := hk a ha.1 (hnot a (.head h1 h2 h3) ha)
    have hbs : b ≠ s := by
      rintro rfl
      exact hnot y h3 hy h2
    refine ⟨⟨by rw [St.live, h4]; exact ha.1, by rw [St.sl, h4]; exact ha.2⟩, ?_, h4⟩
    exact .head (by rw [St.sl, h4]; exact h1) (by rw [St.el, hst b hbs]; exact h2) (ih hts hy hnot).2.1

theorem path_grow {st st' : St} (hi : Inv0 st) (hn : ¬ Cyc st) {t s : Nat} (hts : (st.sl t).sto = some s) (hs : st.liveS s)
    (hk : ∀ x, st.live x → x ∉ st.el s → st'.obj x = st.obj x) (hst : ∀ y, y ≠ s → st'.store y = st.store y) :
    ∀ (q : VPath) {a : Nat}, Value st a → path? st a q = some t → path? st' a q = some t
  | [], _, _, h => h
  | e :: q, a, ha, h => by
    have h1 := ((path_reach hi _ ha h).grow hi hn hts hs hk hst ha).2.2
    rw [path?, Option.bind_eq_some_iff] at h
    obtain ⟨y, h2, h3⟩ := h
    obtain ⟨b, h4, h5⟩ := elem_mem hi ha h2
    have hy := elem_value hi ha h4 h5
    have hbs : b ≠ s := by
      rintro rfl
      exact (path_reach hi q hy h3).outside hi hn hts hs hy h5
    rw [path?, elem_congr (st := st) (by rw [St.sl, h1]) (fun s' h6 => by rw [h4] at h6; cases h6; rw [hst b hbs]), h2]
    exact path_grow hi hn hts hs hk hst q hy h3

/-- `x` was made in `t`, as its element `e`. -/
structure Adds (st st' : St) (t : Nat) (e : PathElem) (x : Nat) : Prop where
  path : ∀ a q, Value st a → path? st a q = some t → path? st' a (q ++ [e]) = some x
  inv : Inv st'
  bk : Bk st st'
  reach : ∀ a, Value st a → Reach st a t → Value st' a ∧ Reach st' a x
  frame : ∀ y, st.live y → (st.obj y).home = none → y ≠ t → st'.obj y = st.obj y
  home : (st'.obj x).home ≠ none

/-- `t` was made a container. -/
structure Begins (st st' : St) (t : Nat) : Prop where
  inv : Inv st'
  bk : Bk st st'
  value : Value st' t
  path : ∀ a q, Value st a → path? st a q = some t → path? st' a q = some t
  reach : ∀ a, Value st a → Reach st a t → Value st' a ∧ Reach st' a t
  frame : ∀ y, st.live y → (st.obj y).home = none → y ≠ t → st'.obj y = st.obj y

theorem Begins.refl {st : St} (hi : Inv st) {t : Nat} (ht : Value st t) : Begins st st t :=
  ⟨hi, .refl hi.toInv0, ht, fun _ _ _ h => h, fun _ h1 h2 => ⟨h1, h2⟩, fun _ _ _ _ => rfl⟩

theorem Begins.adds {st st1 st' : St} {t x : Nat} {e : PathElem} (hi : Inv0 st) (h : Begins st st1 t) (h2 : Adds st1 st' t e x) : Adds st st' t e x where
  path a q ha h3 := h2.path a q (h.reach a ha (path_reach hi q ha h3)).1 (h.path a q ha h3)
  inv := h2.inv
  bk := h.bk.trans h2.bk hi
  reach a h3 h4 := by
    obtain ⟨h5, h6⟩ := h.reach a h3 h4
    exact h2.reach a h5 h6
  frame y h3 h4 h5 := by
    have h6 := h.frame y h3 h4 h5
    rw [h2.frame y (by rw [St.live, h6]; exact h3) (by rw [h6]; exact h4) h5, h6]
  home := h2.home

theorem init_begins {st : St} (hi : Inv st) {t : Nat} {mk : Nat → Slot} {c : Cell} (ht : st.live t) (hn : st.sl t = .null)
    (he : c.elems = []) (hc : CellOk c) (hmk : ∀ s, (mk s).plain = true ∧ (mk s).sto = some s ∧ Fits (mk s) c) :
    ∃ st', initSlot t mk c st = .ok () st' ∧ Begins st st' t ∧ st'.sl t = mk st.nStore ∧ (st'.store st.nStore).cell = c ∧ st'.liveS st.nStore := by
  obtain ⟨h1, h2⟩ := initSlot_null hi ht hn he hc hmk
  have hobj : ∀ y, y ≠ t → ((st.newStore c).setSlot t (mk st.nStore)).obj y = st.obj y := by
    intro y e; simp [St.setSlot, St.setObj, St.newStore, e]
  refine ⟨_, h1, ⟨h2.inv, h2.bk, ⟨h2.live, by rw [h2.sl]; exact (hmk _).1⟩, ?_, ?_, fun y _ _ e => hobj y e⟩, h2.sl, h2.cell,
    h2.inv.stoLive t _ h2.live (by rw [h2.sl]; exact (hmk _).2.1)⟩
  · intro a q
    induction q generalizing a with
    | nil => exact fun _ h => h
    | cons e q ih =>
      intro ha h
      rw [path?, Option.bind_eq_some_iff] at h
      obtain ⟨y, h3, h4⟩ := h
      obtain ⟨b, h5, h6⟩ := elem_mem hi.toInv0 ha h3
      have hat : a ≠ t := by rintro rfl; rw [hn] at h5; cases h5
      have hbn : b ≠ st.nStore := by have := hi.storeBound _ (hi.stoLive a b ha.1 h5); omega
      rw [path?, elem_congr (st := st) (by rw [St.sl, hobj a hat]) (fun s' h7 => ?_), h3]
      · exact ih y (elem_value hi.toInv0 ha h5 h6) h4
      · rw [h5] at h7; cases h7
        show ((st.newStore c).store b).cell = _
        rw [newStore_store st c hbn]
  intro a ha h
  have hv : ∀ y, Value st y → Value ((st.newStore c).setSlot t (mk st.nStore)) y := by
    intro y hy
    refine ⟨(setSlot_live (st.newStore c) t _ y).2 hy.1, ?_⟩
    rw [setSlot_sl]
    by_cases e : y = t
    · rw [if_pos e]; exact (hmk _).1
    · rw [if_neg e]; exact hy.2
  refine ⟨hv a ha, ?_⟩
  clear h1 h2
  induction h with
  | refl => exact .refl _
  | head h1 h2 h3 ih =>
    rename_i a b y t
    have hat : a ≠ t := by rintro rfl; rw [hn] at h1; cases h1
    have hb := hi.stoLive _ _ ha.1 h1
    have hbn : b ≠ st.nStore := by have := hi.storeBound _ hb; omega
    refine .head (s := b) (y := y) ?_ ?_ (ih ht hn hobj (elem_value hi.toInv0 ha h1 h2) hv)
    · rw [St.sl, hobj a hat]; exact h1
    · show y ∈ ((st.newStore c).store b).cell.elems
      rw [newStore_store st c hbn]; exact h2

theorem asContainer_spec {st : St} (hi : Inv st) {t : Nat} (ht : Value st t) (e : PathElem) :
    ∃ st', asContainer t e st = .ok () st' ∧ Begins st st' t ∧
      (child t e st = .ok none st → child t e st' = .ok none st') ∧ (Room st t e → Room st' t e ∧ st'.sl t ≠ .null) := by
  rw [asContainer, bind_ok (run_plain ht.1 ht.2)]
  cases hs : st.sl t with
  | null =>
    cases e with
    | index i =>
      obtain ⟨st', h1, h2, h3, h4, h5⟩ := init_begins hi (mk := .list) (c := .list 0 []) ht.1 hs rfl trivial (fun s => ⟨rfl, rfl, trivial⟩)
      refine ⟨st', h1, h2, fun _ => ?_, fun hr => ⟨⟨hr.1, .inr ⟨_, h3⟩⟩, by rw [h3]; simp⟩⟩
      rw [child, bind_ok (run_plain h2.value.1 h2.value.2), h3]
      simp only
      rw [bind_ok (run_load h5), h4]; rfl
    | key k =>
      obtain ⟨st', h1, h2, h3, h4, h5⟩ := init_begins hi (mk := .map) (c := .map []) ht.1 hs rfl (by simp [CellOk, AMap.Sorted]) (fun s => ⟨rfl, rfl, trivial⟩)
      refine ⟨st', h1, h2, fun _ => ?_, fun _ => ⟨.inr ⟨_, h3⟩, by rw [h3]; simp⟩⟩
      rw [child, bind_ok (run_plain h2.value.1 h2.value.2), h3]
      simp only
      rw [bind_ok (run_load h5), h4]; rfl
  | _ => cases e <;> exact ⟨st, rfl, .refl hi ht, id, fun h => ⟨h, by rw [hs]; simp⟩⟩

theorem bump {i : UInt32} {n : Nat} (h : ¬ i.toNat < n) (h2 : n < (i + 1).toNat) : (i + 1).toNat = i.toNat + 1 := by
  rw [UInt32.toNat_add] at *
  have : i.toNat < 4294967296 := i.toNat_lt
  simp only [UInt32.reduceToNat] at *
  omega

theorem wraps {i : UInt32} {n : Nat} (h : ¬ i.toNat < n) (h2 : (i + 1).toNat ≤ n) : i = 0xFFFFFFFF := by
  rw [← UInt32.toNat_inj]
  rw [UInt32.toNat_add] at h2
  have : i.toNat < 4294967296 := i.toNat_lt
  simp only [UInt32.reduceToNat] at *
  omega

theorem fits_list {cap cap' : Nat} {es es' : List Nat} (sl : Slot) (h : Fits sl (.list cap es)) : Fits sl (.list cap' es') := by
  cases sl <;> first | exact h | trivial

theorem fits_map {m m' : List (Bytes × Nat)} (sl : Slot) (h : Fits sl (.map m)) : Fits sl (.map m') := by
  cases sl <;> first | exact h | trivial

/-- A list made longer. -/
theorem extend_adds {st : St} (hi : Inv st) (hn : ¬ Cyc st) (grow : Nat → Nat → Nat) {t s cap : Nat} {es : List Nat} (ht : Value st t)
    (hts : st.sl t = .list s) (hc : (st.store s).cell = .list cap es) (n : Nat) (hlen : 0 < n) {i : UInt32} (hin : i.toNat = es.length + n - 1) {st' : St}
    (hst' : st' = st.extend grow s cap es (List.replicate n .null)) :
    ∃ cap' es' x, (st'.store s).cell = .list cap' es' ∧ es'[es.length + n - 1]? = some x ∧ st'.liveS s ∧ Value st' t ∧ Adds st st' t (.index i) x ∧ st'.sl x = .null := by
  obtain ⟨hs, _⟩ := cell_list hi.toInv0 ht.1 hts
  have hE := extend_extends hi grow hs hc (slots := List.replicate n .null) (fun sl h => by
    rw [List.eq_of_mem_replicate h]; exact null_good st)
  rw [← hst'] at hE
  have hel : st.el s = es := by rw [St.el, hc]; rfl
  obtain ⟨cap', es', h1, h2, h3⟩ := hE.cell
  rw [List.length_replicate] at h2
  have h4 : es'[es.length + n - 1]? = some es'[es.length + n - 1] := List.getElem?_eq_getElem (by omega)
  generalize es'[es.length + n - 1] = x at h4
  have hx : x ∈ st'.el s := by rw [St.el, h1]; exact List.mem_of_getElem? h4
  have hsl : st'.sl x = .null := by
    have := h3 _ x (by omega) h4
    rw [List.getElem?_replicate_of_lt (by omega)] at this
    exact (Option.some.inj this).symm
  have hk : ∀ x, st.live x → x ∉ st.el s → st'.obj x = st.obj x := by rw [hel]; exact hE.keep
  have hts' : (st.sl t).sto = some s := by rw [hts]; rfl
  have hreach : ∀ a, Value st a → Reach st a t → Value st' a ∧ Reach st' a x := by
    intro a ha h
    obtain ⟨h5, h6, _⟩ := h.grow hi.toInv0 hn hts' hs hk hE.store ha
    obtain ⟨_, _, h7⟩ := (Reach.refl t).grow hi.toInv0 hn hts' hs hk hE.store ht
    exact ⟨h5, h6.trans (.head (by rw [St.sl, h7]; exact hts') hx (.refl x))⟩
  have hpath : ∀ a q, Value st a → path? st a q = some t → path? st' a (q ++ [.index i]) = some x := by
    intro a q ha h
    obtain ⟨_, _, h7⟩ := (Reach.refl t).grow hi.toInv0 hn hts' hs hk hE.store ht
    rw [path_append, path_grow hi.toInv0 hn hts' hs hk hE.store q ha h, Option.bind_some, path?]
    have h8 : elem? st' t (.index i) = some x := by
      unfold elem?
      rw [St.sl, h7, ← St.sl, hts]
      simp only [h1]
      rw [hin]; exact h4
    rw [h8]; rfl
  refine ⟨cap', es', x, h1, h4, hE.liveS, (hreach t ht (.refl t)).1, ⟨hpath, hE.inv, ⟨?_, ?_⟩, hreach, ?_, ?_⟩, hsl⟩
  · exact {
      env := hE.env
      holds := hE.holds
      nObj := hE.nObj
      nStore := Nat.le_of_eq hE.nStore.symm
      old := fun y hy hl => by
        obtain ⟨h5, h6⟩ := hE.old y hy hl
        exact ⟨h5, by rw [h6]⟩
      top := fun y hy hh => by
        have : y ∉ es := by rw [← hel]; intro hm; rw [(hi.elems s y hs hm).2.2] at hh; cases hh
        rw [St.live, hE.keep y hy this]; exact hy
      new := fun y hy hl => by rw [hE.new y hy hl]; simp
      kind := fun a ha hl => by
        by_cases e : a = s
        · subst e
          exact ⟨hs, fun sl h => by rw [hc] at h; rw [h1]; exact fits_list sl h⟩
        · rw [St.liveS, hE.store a e] at hl
          rw [hE.store a e]
          exact ⟨hl, fun _ h => h⟩
      stays := fun y hy hl => by rw [(hE.old y (hi.objBound y hy) hl).2]; exact .refl _ }
  · intro a b h
    rcases hE.edge a b h with h | ⟨_, sl, h5, h6⟩
    · exact .inl h
    · rw [List.eq_of_mem_replicate h5] at h6; cases h6
  · intro y hy hh _
    refine hE.keep y hy ?_
    rw [← hel]; intro hm; rw [(hi.elems s y hs hm).2.2] at hh; cases hh
  · rw [(hE.inv.elems s x hE.liveS hx).2.2]; simp

/-- A list made shorter. -/
theorem take_drop_nodup {es : List Nat} (h : es.Nodup) (n : Nat) (x : Nat) : x ∈ es.take n ↔ x ∈ es ∧ x ∉ es.drop n := by
  have hd := h
  rw [← List.take_append_drop n es, List.nodup_append] at hd
  constructor
  · intro hx
    exact ⟨List.mem_of_mem_take hx, fun h2 => hd.2.2 x hx x h2 rfl⟩
  · rintro ⟨h1, h2⟩
    rw [← List.take_append_drop n es, List.mem_append] at h1
    exact h1.resolve_right h2

/-- After an exception. -/
def Safe (st st' : St) : Prop := Inv st' ∧ Fr st st'

theorem pick_spec {st : St} {t s cap : Nat} {es : List Nat} (ht : Value st t) (hs : st.liveS s) (hc : (st.store s).cell = .list cap es) (i : UInt32) :
    pick t s i st = match es[i.toNat]? with
      | some x => .ok x st
      | none => .thr .outOfRange st := by
  rw [pick, bind_ok (run_plain ht.1 ht.2), bind_ok (run_load hs), hc]
  simp only
  cases es[i.toNat]? <;> rfl

theorem set_split {m : List (Bytes × Nat)} {k : Bytes} {v : Nat} (h : AMap.get m k = none) :
    ∃ a b, m = a ++ b ∧ AMap.set m k v = a ++ (k, v) :: b := by
  induction m with
  | nil => exact ⟨[], [], rfl, rfl⟩
  | cons p r ih =>
    obtain ⟨k', v'⟩ := p
    rw [AMap.get] at h
    by_cases e : k' = k
    · rw [if_pos e] at h; cases h
    · rw [if_neg e] at h
      rw [AMap.set, if_neg e]
      by_cases h2 : keyLt k k' = true
      · rw [if_pos h2]; exact ⟨[], _, rfl, rfl⟩
      · rw [if_neg h2]
        obtain ⟨a, b, h3, h4⟩ := ih h
        exact ⟨(k', v') :: a, b, by rw [h3]; rfl, by rw [h4]; rfl⟩

/-- An entry added to a map. -/
theorem insert_adds {st : St} (hi : Inv st) (hn : ¬ Cyc st) {t s : Nat} {m : List (Bytes × Nat)} (ht : Value st t)
    (hts : st.sl t = .map s) (hc : (st.store s).cell = .map m) {k : Bytes} (hk : AMap.get m k = none) :
    ∃ st', insert s m k st = .ok st.nObj st' ∧ Adds st st' t (.key k) st.nObj ∧ st'.sl st.nObj = .null ∧
      (∀ y, st.live y → st'.obj y = st.obj y) ∧ (st'.store s).cell = .map (AMap.set m k st.nObj) := by
  obtain ⟨hs, _⟩ := cell_map hi.toInv0 ht.1 hts
  have hel : st.el s = m.map (·.2) := by rw [St.el, hc]; rfl
  have hsort : AMap.Sorted m := by have := hi.cellOk s hs; rwa [hc] at this
  obtain ⟨a, b, hm, hset⟩ := set_split (v := st.nObj) hk
  have hel2 : (Cell.map (AMap.set m k st.nObj)).elems = a.map (·.2) ++ st.nObj :: b.map (·.2) := by
    rw [hset]; simp [Cell.elems]
  have hel1 : st.el s = a.map (·.2) ++ b.map (·.2) := by rw [hel, hm]; simp
  have hnd := hi.nodup s hs
  rw [hel1, List.nodup_append] at hnd
  have hnew : ∀ x, x ∈ st.el s → x ≠ st.nObj := fun x hx => by
    have := hi.objBound x (hi.elems s x hs hx).1; omega
  rw [hel1] at hnew
  have hg := new_grows hi.toInv0 hs (slots := [.null]) (c := .map (AMap.set m k st.nObj)) (fun sl h => by
      rw [List.mem_singleton.1 h]; exact null_good st)
    (fun sl h => by rw [hc] at h; exact fits_map sl h) (AMap.sorted_set hsort k st.nObj)
    (by
      rw [hel2, List.nodup_append, List.nodup_cons]
      refine ⟨hnd.1, ⟨fun h => hnew _ (List.mem_append_right _ h) rfl, hnd.2.1⟩, fun x hx y hy => ?_⟩
      rcases List.mem_cons.1 hy with h | h
      · rw [h]; exact hnew x (List.mem_append_left _ hx)
      · exact hnd.2.2 x hx y h)
    (by
      intro x
      rw [hel2, hel1]
      simp only [List.mem_append, List.mem_cons, List.length_singleton]
      constructor
      · rintro (h | h | h)
        · exact .inl (.inl h)
        · right; omega
        · exact .inl (.inr h)
      · rintro ((h | h) | h)
        · exact .inl h
        · exact .inr (.inr h)
        · right; left; omega)
  refine ⟨_, rfl, ?_⟩
  generalize hst' : (st.new (some s) [.null]).setCell s (.map (AMap.set m k st.nObj)) = st' at hg
  have hold : ∀ y, st.live y → st'.obj y = st.obj y := fun y hy => hg.old hi.toInv0 hy
  have hi' : Inv st' := ⟨hg.inv hi.toInv0, fun y hy => hg.owned hi.toInv0 (hi.owned y ((hg.store y).1.1 hy))⟩
  have hcell : (st'.store s).cell = .map (AMap.set m k st.nObj) := by rw [← hst']; simp [St.setCell]
  have hs' : st'.liveS s := (hg.store s).1.2 hs
  have hstore : ∀ y, y ≠ s → st'.store y = st.store y := fun y hy => by rw [← hst']; simp [St.setCell, St.new, hy]
  have hx : st.nObj ∈ st'.el s := by rw [St.el, hcell, hel2]; simp
  have hts' : (st.sl t).sto = some s := by rw [hts]; rfl
  have hlx : st'.live st.nObj := hg.isNew 0 (by simp)
  have hpath : ∀ a q, Value st a → path? st a q = some t → path? st' a (q ++ [.key k]) = some st.nObj := by
    intro a q ha h
    rw [path_append, path_grow hi.toInv0 hn hts' hs (fun y hy _ => hold y hy) hstore q ha h, Option.bind_some, path?]
    have h8 : elem? st' t (.key k) = some st.nObj := by
      unfold elem?
      rw [St.sl, hold t ht.1, ← St.sl, hts]
      simp only [hcell]
      exact AMap.get_set_self _ _ _
    rw [h8]; rfl
  refine ⟨⟨hpath, hi', ⟨?_, ?_⟩, ?_, fun y hy _ _ => hold y hy, by rw [(hi'.elems s _ hs' hx).2.2]; simp⟩, ?_, hold, hcell⟩
  · exact {
      env := hg.env
      holds := hg.holds
      nObj := by rw [hg.nObj]; omega
      nStore := Nat.le_of_eq hg.nStore.symm
      old := fun y hy hl => by
        have := hg.oldObj y hy
        exact ⟨by rw [St.live, ← this]; exact hl, by rw [this]⟩
      top := fun y hy _ => by rw [St.live, hold y hy]; exact hy
      new := fun y hy hl => by
        obtain ⟨sl, _, h⟩ := hg.newObj y hy hl
        rw [h]; simp
      kind := fun a _ hl => ⟨(hg.store a).1.1 hl, (hg.store a).2⟩
      stays := fun y hy _ => by rw [hold y hy]; exact .refl _ }
  · intro a b h
    rcases hg.edge hi.toInv0 h with h | ⟨_, sl, h5, h6⟩
    · exact .inl h
    · rw [List.mem_singleton.1 h5] at h6; cases h6
  · intro a ha h
    obtain ⟨h5, h6, _⟩ := h.grow hi.toInv0 hn hts' hs (fun y hy _ => hold y hy) hstore ha
    exact ⟨h5, h6.trans (.head (by rw [St.sl, hold t ht.1]; exact hts') hx (.refl _))⟩
  · obtain ⟨sl, h1, h2⟩ := hg.newObj st.nObj (Nat.le_refl _) hlx
    rw [St.sl, h2]
    rw [Nat.sub_self] at h1
    exact (Option.some.inj h1).symm

/-- An element that is there. -/
theorem present_adds {st : St} (hi : Inv st) {t s x : Nat} {e : PathElem} (ht : Value st t) (hts : (st.sl t).sto = some s) (hx : x ∈ st.el s)
    (he : elem? st t e = some x) : Adds st st t e x where
  path a q _ h := by rw [path_append, h, Option.bind_some, path?, he]; rfl
  inv := hi
  bk := .refl hi.toInv0
  reach a ha h := ⟨ha, h.trans (.head hts hx (.refl x))⟩
  frame _ _ _ _ := rfl
  home := by rw [(hi.elems s x (hi.stoLive t s ht.1 hts) hx).2.2]; simp

theorem mkIn_spec {st : St} (hi : Inv st) (hn : ¬ Cyc st) (grow : Nat → Nat → Nat) {t : Nat} (ht : Value st t) (e : PathElem) :
    Tri st (mkIn grow t e) False (fun x st' => Adds st st' t e x ∧ (child t e st = .ok none st → st'.sl x = .null))
      (fun st' => Safe st st' ∧ ¬ (Room st t e ∧ st.sl t ≠ .null)) := by
  rw [mkIn]
  refine .after (run_plain ht.1 ht.2) ?_
  have hsafe : Safe st st := ⟨hi, .refl hi.toInv0⟩
  cases hs : st.sl t with
  | list s =>
    cases e with
    | key k => exact .thr rfl ⟨hsafe, fun h => by obtain ⟨h | ⟨_, h⟩, _⟩ := h <;> rw [hs] at h <;> cases h⟩
    | index i =>
      obtain ⟨h1, cap, es, h2⟩ := cell_list hi.toInv0 ht.1 hs
      simp only
      refine .after (run_load h1) ?_
      simp only [h2]
      have hel : st.el s = es := by rw [St.el, h2]; rfl
      by_cases hlt : i.toNat < es.length
      · rw [if_pos hlt]
        have hp := pick_spec ht h1 h2 i
        rw [List.getElem?_eq_getElem hlt] at hp
        refine .ok hp ⟨present_adds hi ht (by rw [hs]; rfl) (by rw [hel]; exact List.getElem_mem hlt) (by unfold elem?; simp only [hs, h2]; exact List.getElem?_eq_getElem hlt), fun hc => ?_⟩
        rw [child, bind_ok (run_plain ht.1 ht.2), hs] at hc
        simp only at hc
        rw [bind_ok (run_load h1), h2] at hc
        simp only [List.getElem?_eq_getElem hlt] at hc
        cases hc
      · rw [if_neg hlt]
        by_cases hle : (i + 1).toNat ≤ es.length
        · -- the index wraps around: the list is cut, then there is no such element
          have hrun : resize grow s (i + 1).toNat st = drop s (.list cap (es.take (i + 1).toNat)) (es.drop (i + 1).toNat) st := by
            rw [resize, bind_ok (run_load h1), h2]; simp only [if_pos hle]
          rcases drop_spec hi h1 (c := .list cap (es.take (i + 1).toNat)) (D := es.drop (i + 1).toNat)
              (fun sl h => by rw [h2] at h; exact fits_list sl h) trivial (fun x hx => by rw [hel]; exact List.mem_of_mem_drop hx)
              (fun x => by rw [hel]; exact take_drop_nodup (hel ▸ hi.nodup s h1) _ x)
              (List.Nodup.sublist (List.take_sublist _ _) (hel ▸ hi.nodup s h1)) with ⟨_, h3⟩ | ⟨st', h3, h4⟩
          · exact absurd h3 hn
          · refine .after (hrun.trans h3) ?_
            have hl := h4.owner hn t ht.1 (by rw [hs]; rfl)
            have hp := pick_spec (t := t) ⟨hl, by rw [St.sl, (h4.obj t hl).2.2]; exact ht.2⟩ h4.liveS h4.cell i
            rw [List.getElem?_eq_none (by rw [List.length_take]; omega)] at hp
            exact .thr hp ⟨⟨h4.inv, h4.fr⟩, fun h => h.1.1 (wraps hlt hle)⟩
        · have hb := bump hlt (by omega)
          have hrun : resize grow s (i + 1).toNat st = .ok () (st.extend grow s cap es (List.replicate ((i + 1).toNat - es.length) .null)) := by
            rw [resize, bind_ok (run_load h1), h2]; simp only [if_neg hle]; rfl
          refine .after hrun ?_
          obtain ⟨cap', es', x, h3, h4, h5, h6, h7, h8⟩ := extend_adds hi hn grow ht hs h2 ((i + 1).toNat - es.length) (by omega) (i := i) (by omega) rfl
          have hp := pick_spec h6 h5 h3 i
          rw [show i.toNat = es.length + ((i + 1).toNat - es.length) - 1 by omega, h4] at hp
          exact .ok hp ⟨h7, fun _ => h8⟩
  | map s =>
    cases e with
    | index i => exact .thr rfl ⟨hsafe, fun h => by obtain ⟨⟨_, h | ⟨_, h⟩⟩, _⟩ := h <;> rw [hs] at h <;> cases h⟩
    | key k =>
      obtain ⟨h1, m, h2⟩ := cell_map hi.toInv0 ht.1 hs
      simp only
      refine .after (run_load h1) ?_
      simp only [h2]
      have hel : st.el s = m.map (·.2) := by rw [St.el, h2]; rfl
      cases hg : AMap.get m k with
      | some x =>
        refine .ok rfl ⟨present_adds hi ht (by rw [hs]; rfl) (by rw [hel]; exact List.mem_map.2 ⟨_, get_mem hg, rfl⟩) (by unfold elem?; simp only [hs, h2]; exact hg), fun hc => ?_⟩
        rw [child, bind_ok (run_plain ht.1 ht.2), hs] at hc
        simp only at hc
        rw [bind_ok (run_load h1), h2] at hc
        simp only [hg] at hc
        cases hc
      | none =>
        obtain ⟨st', h3, h4, h5, _⟩ := insert_adds hi hn ht hs h2 hg
        exact .ok h3 ⟨h4, fun _ => h5⟩
  | _ =>
    cases e
    · exact .thr rfl ⟨hsafe, fun h => by obtain ⟨h | ⟨_, h⟩, h2⟩ := h <;> rw [hs] at h <;> first | exact h2 rfl | cases h⟩
    · exact .thr rfl ⟨hsafe, fun h => by obtain ⟨⟨_, h | ⟨_, h⟩⟩, h2⟩ := h <;> rw [hs] at h <;> first | exact h2 rfl | cases h⟩

theorem mkElem_spec {st : St} (hi : Inv st) (hn : ¬ Cyc st) (grow : Nat → Nat → Nat) {t : Nat} (ht : Value st t) (e : PathElem) :
    Tri st (mkElem grow t e) False (fun x st' => Adds st st' t e x ∧ (child t e st = .ok none st → st'.sl x = .null))
      (fun st' => Safe st st' ∧ ¬ Room st t e) := by
  rw [mkElem]
  obtain ⟨st1, h1, h2, h3, hroom⟩ := asContainer_spec hi ht e
  refine .after h1 ?_
  refine (mkIn_spec h2.inv (fun h => hn (h2.bk.cyc hi.toInv0 h)) grow h2.value e).mono id ?_ ?_
  · rintro x st' ⟨h4, h5⟩
    exact ⟨h2.adds hi.toInv0 h4, fun h => h5 (h3 h)⟩
  · rintro st' ⟨⟨h4, h5⟩, h6⟩
    exact ⟨⟨h4, h2.bk.toFr.trans h5 hi.toInv0⟩, fun h => h6 (hroom h)⟩

/-- `GetPathRef` with the default `d` returned `c`. -/
structure Paths (st st' : St) (d t : Nat) (p : VPath) (c : Nat) : Prop where
  path : ∀ a q, Value st a → path? st a q = some t → path? st' a (q ++ p) = some c
  inv : Inv st'
  fr : Fr st st'
  bk : (st.sl d).sto = none → Bk st st'
  reach : ∀ a, Value st a → Reach st a t → Value st' a ∧ Reach st' a c
  frame : ∀ y, st.live y → (st.obj y).home = none → y ≠ t → st'.obj y = st.obj y

/-- Giving contents to a new element. -/
theorem fill_reach {st : St} (hi : Inv0 st) {x : Nat} {new : Slot} (hx : st.sl x = .null) (hn : new.plain = true) {a : Nat} (h : Reach st a x) (ha : Value st a) :
    Value (st.setSlot x new) a ∧ Reach (st.setSlot x new) a x := by
  have hv : ∀ y, Value st y → Value (st.setSlot x new) y := by
    intro y hy
    refine ⟨(setSlot_live st x _ y).2 hy.1, ?_⟩
    rw [setSlot_sl]
    by_cases e : y = x
    · rw [if_pos e]; exact hn
    · rw [if_neg e]; exact hy.2
  refine ⟨hv a ha, ?_⟩
  induction h with
  | refl => exact .refl _
  | head h1 h2 h3 ih =>
    rename_i a b y x
    have hax : a ≠ x := by rintro rfl; rw [hx] at h1; cases h1
    refine .head (s := b) (y := y) ?_ h2 (ih hx (elem_value hi ha h1 h2) hv)
    rw [setSlot_sl, if_neg hax]; exact h1

theorem fill_path {st : St} (hi : Inv0 st) {x : Nat} {new : Slot} (hx : st.sl x = .null) : ∀ (q : VPath) {a : Nat}, Value st a →
    path? st a q = some x → path? (st.setSlot x new) a q = some x
  | [], _, _, h => h
  | e :: q, a, ha, h => by
    rw [path?, Option.bind_eq_some_iff] at h
    obtain ⟨y, h1, h2⟩ := h
    obtain ⟨s, h3, h4⟩ := elem_mem hi ha h1
    have hax : a ≠ x := by rintro rfl; rw [hx] at h3; cases h3
    rw [path?, elem_congr (st := st) (st' := st.setSlot x new) (by rw [setSlot_sl, if_neg hax]) (fun _ _ => rfl), h1]
    exact fill_path hi hx q (elem_value hi ha h3 h4) h2

theorem creatable_null {st : St} {x : Nat} (hx : st.sl x = .null) {p : VPath} (h : ∀ e ∈ p, PathElem.Fine e) : Creatable st x p := by
  cases p with
  | nil => trivial
  | cons e p =>
    have he : elem? st x e = none := by unfold elem?; rw [hx]
    rw [Creatable, he]
    refine ⟨?_, fun e' h' => h e' (List.mem_cons_of_mem _ h')⟩
    cases e with
    | key k => exact .inl hx
    | index i => exact ⟨h _ List.mem_cons_self, .inl hx⟩

theorem getPathDef_spec (grow : Nat → Nat → Nat) {d : Nat} : ∀ (p : VPath) {st : St} {t : Nat}, Inv st → ¬ Cyc st → Value st t →
    Value st d → (st.obj d).home = none → d ≠ t →
    Tri st (getPathDef grow d t p) False (fun c st' => Paths st st' d t p c) (fun st' => Safe st st' ∧ ¬ Creatable st t p)
  | [], st, t, hi, hn, ht, hd, hh, hdt => by
    rw [getPathDef]
    exact .after (run_plain ht.1 ht.2) (.ok rfl ⟨fun a q _ h => by rw [List.append_nil]; exact h, hi, .refl hi.toInv0, fun _ => .refl hi.toInv0, fun _ h1 h2 => ⟨h1, h2⟩, fun _ _ _ _ => rfl⟩)
  | e :: p, st, t, hi, hn, ht, hd, hh, hdt => by
    rw [getPathDef]
    obtain ⟨r, h1, h2⟩ := child_spec hi.toInv0 ht e
    have hel : elem? st t e = r := by rw [child_eq hi.toInv0 ht e] at h1; cases h1; rfl
    have happ : ∀ q : VPath, q ++ e :: p = (q ++ [e]) ++ p := fun q => by simp
    refine .after h1 ?_
    cases r with
    | some c =>
      obtain ⟨s, h3, h4⟩ := h2 c rfl
      have h5 := hi.elems s c (hi.stoLive t s ht.1 h3) h4
      refine (getPathDef_spec grow p hi hn ⟨h5.1, h5.2.1⟩ hd hh (by rintro rfl; rw [hh] at h5; cases h5.2.2)).mono id ?_
        (fun _ h => ⟨h.1, fun h2 => h.2 (by rw [Creatable, hel] at h2; exact h2)⟩)
      rintro c' st' h6
      refine ⟨fun a q ha h => by rw [happ]; exact h6.path a _ ha (by rw [path_append, h, Option.bind_some, path?, hel]; rfl), h6.inv, h6.fr, h6.bk, fun a ha h => h6.reach a ha (h.trans (.head h3 h4 (.refl c))), fun y h7 h8 _ => h6.frame y h7 h8 ?_⟩
      rintro rfl; rw [h8] at h5; cases h5.2.2
    | none =>
      refine (mkElem_spec hi hn grow ht e).bind id (fun _ h => ⟨h.1, fun h2 => h.2 (by rw [Creatable, hel] at h2; exact h2.1)⟩) ?_
      rintro x st1 ⟨h3, h4⟩
      have h4 := h4 h1
      have hx : Value st1 x := (h3.reach t ht (.refl t)).2.value h3.inv.toInv0 (h3.reach t ht (.refl t)).1
      have hd1 := h3.frame d hd.1 hh hdt
      have hdv : Value st1 d := ⟨by rw [St.live, hd1]; exact hd.1, by rw [St.sl, hd1]; exact hd.2⟩
      by_cases hp : p = []
      · rw [if_pos hp]
        refine .after (run_plain hdv.1 hdv.2) ?_
        have hg := hdv.good h3.inv.toInv0
        obtain ⟨h5, h6⟩ := setSlot_null h3.inv hx (by rw [h4]; rfl) hg
        refine .after h5 ?_
        have hfr : Fr st1 (st1.setSlot x (st1.sl d)) := by
          have := fr_collect h3.inv.toInv0 (Collects.refl h6.toInv0) (setSlot_live _ _ _) (setSlot_home _ _ _) rfl rfl rfl (Nat.le_refl _) (fun _ _ => rfl)
            (evolve_setSlot (.write hx.2 hg.1))
          exact this
        refine .ok rfl ⟨fun a q ha h => by rw [hp]; exact fill_path h3.inv.toInv0 h4 _ (h3.reach a ha (path_reach hi.toInv0 q ha h)).1 (h3.path a q ha h), h6, h3.bk.toFr.trans hfr hi.toInv0, fun hs => h3.bk.trans ⟨hfr, fun a b h => ?_⟩ hi.toInv0, ?_, ?_⟩
        · obtain ⟨h7, e', h8, h9⟩ := h
          rw [setSlot_sl] at h9
          by_cases he : e' = x
          · rw [if_pos he, St.sl, hd1] at h9
            rw [← St.sl, hs] at h9; cases h9
          · rw [if_neg he] at h9; exact .inl ⟨h7, e', h8, h9⟩
        · intro a ha h
          obtain ⟨h7, h8⟩ := h3.reach a ha h
          exact fill_reach h3.inv.toInv0 h4 hg.1 h8 h7
        · intro y h7 h8 h9
          have h10 := h3.frame y h7 h8 h9
          have : y ≠ x := by rintro rfl; rw [← h10] at h8; exact h3.home h8
          rw [← h10]; simp [St.setSlot, St.setObj, this]
      · rw [if_neg hp]
        have hh1 : (st1.obj d).home = none := by rw [hd1]; exact hh
        refine (getPathDef_spec grow p h3.inv (fun h => hn (h3.bk.cyc hi.toInv0 h)) hx hdv hh1 (by rintro rfl; exact h3.home hh1)).mono id ?_ ?_
        · rintro c st' h6
          refine ⟨fun a q ha h => by rw [happ]; exact h6.path a _ (h3.reach a ha (path_reach hi.toInv0 q ha h)).1 (h3.path a q ha h), h6.inv, h3.bk.toFr.trans h6.fr hi.toInv0, fun hs => h3.bk.trans (h6.bk (by rw [St.sl, hd1]; exact hs)) hi.toInv0, ?_, ?_⟩
          · intro a ha h
            obtain ⟨h7, h8⟩ := h3.reach a ha h
            exact h6.reach a h7 h8
          · intro y h7 h8 h9
            have h10 := h3.frame y h7 h8 h9
            rw [h6.frame y (by rw [St.live, h10]; exact h7) (by rw [h10]; exact h8), h10]
            rintro rfl; rw [← h10] at h8; exact h3.home h8
        · rintro st' ⟨⟨h6, h7⟩, h8⟩
          exact ⟨⟨h6, h3.bk.toFr.trans h7 hi.toInv0⟩, fun h => h8 (creatable_null h4 (by rw [Creatable, hel] at h; exact h.2))⟩

end Verif.Ref
