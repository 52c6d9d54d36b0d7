import Verif.Ref.Tree
/-!
# What changes of the memory do to values: one step at a time
-/

namespace Verif.Ref
open Verif

/-- Only `t`, its elements and what contains `t` or has the same elements may have changed. -/
structure Local (st st' : St) (t : Nat) : Prop where
  slots : ∀ z, st.live z → st'.live z → z ≠ t → (∀ s, (st.sl t).sto = some s → (st.obj z).home ≠ some s) → st'.sl z = st.sl z
  cells : ∀ s, st.liveS s → st'.liveS s → (st.obj t).home ≠ some s → (st.sl t).sto ≠ some s → content st' s = content st s

theorem Local.refl (st : St) (t : Nat) : Local st st t := ⟨fun _ _ _ _ _ => rfl, fun _ _ _ _ _ => rfl⟩

/-- Values apart from `t` stay as they are. -/
theorem Local.is {st st' : St} (hi : Inv0 st) (hi' : Inv0 st') {t z : Nat} {w : Val} (h : Local st st' t) (hz : st.live z) (hz' : st'.live z) (ha : Apart st z t)
    (hw : Is st z w) : Is st' z w := by
  have hsl := h.slots z hz hz' ha.ne ha.elem
  rw [Is, hsl]
  refine is_frame hi hi' hw (fun a => hi.stoLive z a hz) (fun a => by rw [← hsl]; exact hi'.stoLive z a hz') ?_
  intro a s h1 h2 h3
  exact h.cells s (h2.alive hi (hi.stoLive z a hz h1)) h3 (fun h4 => ha.home a s h1 h4 h2) (fun h4 => ha.sto a s h1 h4 h2)

/-- `x` has other contents; nothing else changed. -/
structure Wrote (st st' : St) (x : Nat) (new : Slot) : Prop where
  inv : Inv st'
  fr : Fr st st'
  live : st'.live x
  sl : st'.sl x = new
  others : ∀ z, st'.live z → z ≠ x → st.live z ∧ st'.sl z = st.sl z
  cells : ∀ s, st.liveS s → (st'.store s).cell = (st.store s).cell
  dead : ¬ Cyc st → ∀ z, st.live z → ¬ st'.live z → ∃ h g, (st.obj z).home = some h ∧ (st.sl x).sto = some g ∧ Below st g h

theorem below_setSlot_or {st : St} (hi : Inv0 st) {x : Nat} {new : Slot} (hx : st.live x) {g h : Nat} (hb : Below (st.setSlot x new) g h) :
    Below st g h ∨ ∃ k, (st.obj x).home = some k ∧ Below st g k := by
  induction hb with
  | refl => exact .inl (.refl _)
  | head e _ ih =>
    rename_i a b c _
    by_cases ha : (st.obj x).home = some a
    · exact .inr ⟨a, ha, .refl _⟩
    · have he := edge_setSlot hi hx e ha
      rcases ih with h | ⟨k, h1, h2⟩
      · exact .inl (.head he h)
      · exact .inr ⟨k, h1, .head he h2⟩

theorem Written.wrote {st st' : St} (hi : Inv st) {x : Nat} {new : Slot} (hx : Value st x) (hg : Good st new) (h : Written st st' x new) : Wrote st st' x new where
  inv := h.inv
  fr := h.fr
  live := h.live
  sl := h.sl
  others z h1 h2 := by
    obtain ⟨h3, h4⟩ := h.col.obj z h1
    exact ⟨(setSlot_live ..).1 h3, by rw [St.sl, h4, ← St.sl, setSlot_sl, if_neg h2]⟩
  cells s _ := by rw [(h.col.store s).1]; rfl
  dead hn z hz hd := by
    obtain ⟨k, h1, g, h2, h3, h4⟩ := h.col.deadObj (write_inv0 hi.toInv0 hx hg) ((setSlot_live ..).2 hz) hd
    rw [setSlot_home] at h1
    have h5 := setSlot_unowned hi hx.1 h2 h3
    rcases below_setSlot_or hi.toInv0 hx.1 h4 with h6 | ⟨b, h6, h7⟩
    · exact ⟨k, g, h1, h5, h6⟩
    · obtain ⟨h8, h9⟩ := hi.home x b hx.1 h6
      exact absurd ⟨b, g, ⟨h8, x, h9, h5⟩, h7⟩ hn

theorem write_wrote {st : St} (hi : Inv st) (hn : ¬ Cyc st) {x : Nat} {new : Slot} (hx : Value st x) (hg : Good st new) :
    ∃ st', setSlot x new st = .ok () st' ∧ Wrote st st' x new := by
  rcases setSlot_spec hi hx hg with ⟨_, h⟩ | ⟨st', h1, h2⟩
  · exact absurd h hn
  · exact ⟨st', h1, h2.wrote hi hx hg⟩

theorem newStore_below {st : St} {c : Cell} (he : c.elems = []) {a b : Nat} (h : Below (st.newStore c) a b) : Below st a b :=
  h.mono fun _ _ h => newStore_edge he h

theorem init_wrote {st : St} (hi : Inv st) (hn : ¬ Cyc st) {x : Nat} {mk : Nat → Slot} {c : Cell} (hx : Value st x) (he : c.elems = []) (hc : CellOk c)
    (hmk : ∀ s, (mk s).plain = true ∧ (mk s).sto = some s ∧ Fits (mk s) c) :
    ∃ st', initSlot x mk c st = .ok () st' ∧ Wrote st st' x (mk st.nStore) ∧ (st'.store st.nStore).cell = c := by
  rcases initSlot_spec hi hx he hc hmk with ⟨_, h⟩ | ⟨st', h1, h2⟩
  · exact absurd h hn
  refine ⟨st', h1, ⟨h2.inv, h2.bk.toFr, h2.live, h2.sl, fun z h3 h4 => ?_, fun s hs => ?_, fun _ z hz hd => ?_⟩, h2.cell⟩
  · obtain ⟨h5, h6⟩ := h2.col.obj z h3
    exact ⟨(setSlot_live (st.newStore c) ..).1 h5, by rw [St.sl, h6, ← St.sl, setSlot_sl, if_neg h4]; rfl⟩
  · rw [(h2.col.store s).1]
    exact congrArg _ (newStore_store st c (Nat.ne_of_lt (hi.storeBound s hs)))
  · have hi1 := newStore_inv0 hi.toInv0 he hc
    have hx1 : Value (st.newStore c) x := hx
    have hg : Good (st.newStore c) (mk st.nStore) := by
      refine ⟨(hmk _).1, fun a ha => ?_⟩
      rw [(hmk _).2.1] at ha
      cases ha
      exact ⟨(newStore_live ..).2 (.inr rfl), by rw [newStore_cell]; exact (hmk _).2.2⟩
    obtain ⟨k, h3, g, h4, h5, h6⟩ := h2.col.deadObj (write_inv0 hi1 hx1 hg) ((setSlot_live (st.newStore c) ..).2 hz) hd
    rw [setSlot_home] at h3
    have h7 : (st.sl x).sto = some g := by
      rcases (newStore_live ..).1 h4 with h | h
      · rcases hi.owned g h with h1 | ⟨y, h1, h2⟩
        · exact absurd (Or.inl h1) h5
        · by_cases e : y = x
          · rw [← e]; exact h2
          · exact absurd (Or.inr ⟨y, (setSlot_live (st.newStore c) ..).2 h1, by rw [setSlot_sl, if_neg e]; exact h2⟩) h5
      · exact absurd (Or.inr ⟨x, (setSlot_live (st.newStore c) ..).2 hx.1, by rw [setSlot_sl, if_pos rfl, h]; exact (hmk _).2.1⟩) h5
    rcases below_setSlot_or hi1 hx1.1 h6 with h8 | ⟨b, h8, h9⟩
    · exact ⟨k, g, h3, h7, newStore_below he h8⟩
    · obtain ⟨h10, h11⟩ := hi.home x b hx.1 h8
      exact absurd ⟨b, g, ⟨h10, x, h11, h7⟩, newStore_below he h9⟩ hn

theorem Wrote.content {st st' : St} {x : Nat} {new : Slot} (hi : Inv0 st) (h : Wrote st st' x new) {s : Nat} (hs : st.liveS s) (hs' : st'.liveS s)
    (hh : (st.obj x).home ≠ some s) : content st' s = content st s := by
  refine content_congr (h.cells s hs) fun e he => ?_
  have hx : e ≠ x := by rintro rfl; exact hh (hi.elems s e hs he).2.2
  exact (h.others e (h.inv.elems s e hs' (by rw [St.el, h.cells s hs]; exact he)).1 hx).2

theorem Wrote.loc {st st' : St} {x : Nat} {new : Slot} (hi : Inv0 st) (h : Wrote st st' x new) : Local st st' x :=
  ⟨fun z _ h1 h2 _ => (h.others z h1 h2).2, fun _ h1 h2 h3 _ => h.content hi h1 h2 h3⟩

/-- What was written is there. -/
theorem Wrote.is {st st' : St} {x : Nat} {new : Slot} {w : Val} (hi : Inv0 st) (h : Wrote st st' x new) (hw : SlotIs (Ref.content st) w new)
    (hl : ∀ a, new.sto = some a → st.liveS a) (ho : ∀ a h, new.sto = some a → (st.obj x).home = some h → ¬ Below st a h) : Is st' x w := by
  rw [Is, h.sl]
  refine is_frame hi h.inv.toInv0 hw hl (fun a ha => h.inv.stoLive x a h.live (by rw [h.sl]; exact ha)) fun a s ha hb hs => ?_
  exact h.content hi (hb.alive hi (hl a ha)) hs fun hh => ho a s ha hh hb

/-- An element was written: its owner. -/
theorem Wrote.owner {st st' : St} {x t s : Nat} {new : Slot} (hi : Inv0 st) (hn : ¬ Cyc st) (h : Wrote st st' x new) (ht : st.live t) (hts : (st.sl t).sto = some s)
    (hx : x ∈ st.el s) : st'.live t := by
  refine Decidable.byContradiction fun hd => hn ?_
  obtain ⟨k, g, h1, h2, h3⟩ := h.dead hn t ht hd
  have hs := hi.stoLive t s ht hts
  obtain ⟨h4, h5⟩ := hi.home t k ht h1
  exact ⟨k, s, ⟨h4, t, h5, hts⟩, .head ⟨hs, x, hx, h2⟩ h3⟩

/-- Nothing in the elements of `s` has `s` in it. -/
theorem elem_apart {st : St} (hn : ¬ Cyc st) {s : Nat} (hs : st.liveS s) {y : Slot} (hy : y ∈ (content st s).slots) {a : Nat} (ha : y.sto = some a) : ¬ Below st a s := by
  rw [content, slots_el, List.mem_map] at hy
  obtain ⟨e, he, rfl⟩ := hy
  exact fun hb => hn ⟨s, a, ⟨hs, e, he, ha⟩, hb⟩

theorem is_list {c : Nat → Content} {v : Val} {s : Nat} {xs : List Slot} (h : SlotIs c v (.list s)) (hc : c s = .list xs) : ∃ vs, v = .list vs ∧ AllIs c vs xs := by
  cases v <;> rw [SlotIs] at h
  case list vs =>
    obtain ⟨_, _, h1, h2, h3⟩ := h
    cases h1
    rw [hc] at h2
    cases h2
    exact ⟨vs, rfl, h3⟩
  all_goals simp at h

theorem is_map {c : Nat → Content} {v : Val} {s : Nat} {xs : List (Bytes × Slot)} (h : SlotIs c v (.map s)) (hc : c s = .map xs) : ∃ vs, v = .map vs ∧ MapIs c vs xs := by
  cases v <;> rw [SlotIs] at h
  case map vs =>
    obtain ⟨_, _, h1, h2, h3⟩ := h
    cases h1
    rw [hc] at h2
    cases h2
    exact ⟨vs, rfl, h3⟩
  all_goals simp at h

theorem is_str {c : Nat → Content} {v : Val} {s : Nat} {b : Bytes} (h : SlotIs c v (.str s)) (hc : c s = .str b) : v = .str b := by
  cases v <;> rw [SlotIs] at h
  case str vs =>
    obtain ⟨_, h1, h2⟩ := h
    cases h1
    rw [hc] at h2
    cases h2
    rfl
  all_goals simp at h

theorem is_blob {c : Nat → Content} {v : Val} {s : Nat} {b : List Bytes} (h : SlotIs c v (.blob s)) (hc : c s = .blob b) : v = .blob b := by
  cases v <;> rw [SlotIs] at h
  case blob vs =>
    obtain ⟨_, h1, h2⟩ := h
    cases h1
    rw [hc] at h2
    cases h2
    rfl
  all_goals simp at h

theorem is_null {c : Nat → Content} {v : Val} (h : SlotIs c v .null) : v = .null := by
  cases v <;> rw [SlotIs] at h
  all_goals first | rfl | simp at h

theorem is_sca {c : Nat → Content} {v : Val} {x : Sca} (h : SlotIs c v (.sca x)) : v = x.val := by
  cases v <;> rw [SlotIs] at h
  all_goals first | (simp at h; done) | (cases h; rfl)

/-- An element of `t` was written. -/
theorem Wrote.elem {st st' : St} {c t : Nat} {e : PathElem} {new : Slot} {v w : Val} (hi : Inv0 st) (hn : ¬ Cyc st) (h : Wrote st st' c new) (ht : Value st t)
    (he : elem? st t e = some c) (hv : Is st t v) (hw : SlotIs (Ref.content st') w new) : st'.live t ∧ st'.sl t = st.sl t ∧ Is st' t (putElem v e w) ∧ Local st st' t := by
  obtain ⟨s, h1, h2⟩ := elem_mem hi ht he
  have hs := hi.stoLive t s ht.1 h1
  have hl := h.owner hi hn ht.1 h1 h2
  have htc : t ≠ c := by
    rintro rfl
    exact hn ⟨s, s, ⟨hs, t, h2, h1⟩, .refl s⟩
  have hsl := (h.others t hl htc).2
  have hs' := h.inv.stoLive t s hl (by rw [hsl]; exact h1)
  have hch := (hi.elems s c hs h2).2.2
  have hin : ∀ x ∈ st.el s, x ≠ c → st'.live x ∧ st'.sl x = st.sl x := fun x hx hxc => by
    have := (h.inv.elems s x hs' (by rw [St.el, h.cells s hs]; exact hx)).1
    exact ⟨this, (h.others x this hxc).2⟩
  have hk : ∀ x ∈ st.el s, x ≠ c → ∀ v, SlotIs (Ref.content st) v (st.sl x) → SlotIs (Ref.content st') v (st.sl x) := by
    intro x hx hxc v hv
    obtain ⟨h3, h4⟩ := hin x hx hxc
    refine is_frame hi h.inv.toInv0 hv (fun a => hi.stoLive x a (hi.elems s x hs hx).1) (fun a => by rw [← h4]; exact h.inv.stoLive x a h3) ?_
    intro a b ha hb hbl
    refine h.content hi (hb.alive hi (hi.stoLive x a (hi.elems s x hs hx).1 ha)) hbl fun hh => ?_
    rw [hch] at hh
    cases hh
    exact hn ⟨s, a, ⟨hs, x, hx, ha⟩, hb⟩
  have hg : ∀ x ∈ st.el s, st'.sl x = if x = c then new else st.sl x := by
    intro x hx
    by_cases hxc : x = c
    · rw [if_pos hxc, hxc, h.sl]
    · rw [if_neg hxc, (hin x hx hxc).2]
  have hnd := hi.nodup s hs
  refine ⟨hl, hsl, ?_, ⟨fun z hz hz' hzt hzs => ?_, fun b hb hb' hbh hbs => ?_⟩⟩
  · rw [Is, hsl]
    rw [Is] at hv
    cases hts : st.sl t with
    | list s2 =>
      have e : s2 = s := by rw [hts] at h1; cases h1; rfl
      subst e
      obtain ⟨_, cap, es, hc⟩ := cell_list hi ht.1 hts
      cases e with
      | key k => unfold elem? at he; simp only [hts] at he; cases he
      | index i =>
        unfold elem? at he
        simp only [hts, hc] at he
        rw [St.el, hc, Cell.elems] at hnd hg hk
        rw [hts] at hv
        obtain ⟨vs, rfl, k3⟩ := is_list hv (by rw [Ref.content, hc]; rfl)
        rw [putElem, SlotIs]
        refine ⟨s2, (es.map st.sl).set i.toNat new, rfl, ?_, allIs_update k3 hnd he hk hw⟩
        rw [Ref.content, h.cells s2 hs, hc, contentOf, map_update hnd he hg]
    | map s2 =>
      have e : s2 = s := by rw [hts] at h1; cases h1; rfl
      subst e
      obtain ⟨_, m, hc⟩ := cell_map hi ht.1 hts
      have hsort : AMap.Sorted m := by have := hi.cellOk s2 hs; rwa [hc] at this
      cases e with
      | index k => unfold elem? at he; simp only [hts] at he; cases he
      | key k =>
        unfold elem? at he
        simp only [hts, hc] at he
        rw [St.el, hc, Cell.elems] at hnd hg hk
        rw [hts] at hv
        obtain ⟨mv, rfl, k3⟩ := is_map hv (by rw [Ref.content, hc]; rfl)
        rw [putElem, SlotIs]
        refine ⟨s2, AMap.set (m.map fun p => (p.1, st.sl p.2)) k new, rfl, ?_, mapIs_update k3 hsort hnd he hk hw⟩
        rw [Ref.content, h.cells s2 hs, hc, contentOf, map_update_key hnd he hsort hg]
    | _ => unfold elem? at he; rw [hts] at he; cases e <;> cases he
  · refine (h.others z hz' ?_).2
    rintro rfl
    exact hzs s h1 hch
  · refine h.content hi hb hb' ?_
    rw [hch]
    intro hh
    cases hh
    exact hbs h1

end Verif.Ref
