import Verif.Ref.Container
import Verif.Ref.MakeProps
import Verif.Ref.StorageProps
/-!
# What operations do to values: the parts of the proofs that are about the memory
-/

namespace Verif.Ref
open Verif

theorem SlotIs.plain {c : Nat → Content} {v : Val} {x : Slot} (h : SlotIs c v x) : x.plain = true := by
  cases v <;> rw [SlotIs] at h
  case str => obtain ⟨_, rfl, _⟩ := h; rfl
  case list => obtain ⟨_, _, rfl, _⟩ := h; rfl
  case map => obtain ⟨_, _, rfl, _⟩ := h; rfl
  case blob => obtain ⟨_, rfl, _⟩ := h; rfl
  all_goals rw [h]; rfl

/-! ## Assignment -/

theorem Wrote.unhold {st st2 : St} {t a : Nat} {new : Slot} (h : Wrote { st with holds := a :: st.holds } st2 t new) (hi : Inv st) (hs : new.sto = some a) :
    { st2 with holds := st.holds }.collect = { st2 with holds := st.holds } ∧ Wrote st { st2 with holds := st.holds } t new := by
  have hown : Inv { st2 with holds := st.holds } := by
    refine ⟨holds_inv0 h.inv.toInv0 fun s h1 => h.inv.holdLive s (by rw [h.fr.holds]; exact List.mem_cons_of_mem _ h1), fun s h1 => ?_⟩
    rcases h.inv.owned s h1 with h2 | ⟨w, h2, h3⟩
    · rw [h.fr.holds] at h2
      rcases List.mem_cons.1 h2 with rfl | h2
      · exact .inr ⟨t, h.live, by show (st2.sl t).sto = _; rw [h.sl]; exact hs⟩
      · exact .inl h2
    · exact .inr ⟨w, h2, h3⟩
  have hf := (hold_close hi.toInv0 (a := a) ⟨h.inv, h.fr⟩).2.2
  rw [collect_id hown] at hf
  refine ⟨collect_id hown, hown, hf, h.live, h.sl, h.others, h.cells, fun hn z hz hd => ?_⟩
  obtain ⟨b, g, h1, h2, h3⟩ := h.dead (fun h => hn (hold_cyc h)) z hz hd
  exact ⟨b, g, h1, h2, hold_below h3⟩

theorem assign_wrote {st : St} (hi : Inv st) (hn : ¬ Cyc st) (grow : Nat → Nat → Nat) {q o t u : Nat} (ha : target q st = .ok u st)
    (hc : ∀ hs, Inv0 { st with holds := hs } → targetCreate grow o { st with holds := hs } = .ok t { st with holds := hs }) (hu : Value st u) (ht : Value st t) :
    ∃ st', assign grow q o st = .ok () st' ∧ Wrote st st' t (st.sl u) := by
  have hgood := hu.good hi.toInv0
  rw [assign, bind_ok ha, bind_ok (run_plain hu.1 hu.2)]
  cases hs : (st.sl u).sto with
  | none =>
    simp only
    obtain ⟨st', h1, h2⟩ := write_wrote hi hn ht hgood
    exact ⟨st', by rw [bind_ok (hc st.holds hi.toInv0), bind_ok (run_plain hu.1 hu.2)]; exact h1, h2⟩
  | some a =>
    simp only
    have hih := hold_inv hi (hi.stoLive u a hu.1 hs)
    obtain ⟨st2, h1, h2⟩ := write_wrote hih (fun h => hn (hold_cyc h)) (x := t) (new := st.sl u) ht hgood
    obtain ⟨h3, h4⟩ := h2.unhold hi hs
    refine ⟨_, ?_, h4⟩
    rw [withHold, bind_ok (hc _ hih.toInv0), h1]
    show Res.ok () (St.collect { st2 with holds := st.holds }) = _
    rw [h3]

/-- The memory a literal stands for. -/
theorem assignLit_wrote {st : St} (hi : Inv st) (hn : ¬ Cyc st) {t : Nat} (ht : Value st t) (l : Lit) :
    ∃ st' new, assignLit t l st = .ok () st' ∧ Wrote st st' t new ∧ Is st' t l.val := by
  have hset : ∀ s : Slot, s.plain = true → s.sto = none → (∀ c, SlotIs c l.val s) → assignLit t l = setSlot t s → ∃ st' new, assignLit t l st = .ok () st' ∧ Wrote st st' t new ∧ Is st' t l.val := by
    intro s h1 h2 h3 h4
    obtain ⟨st', h5, h6⟩ := write_wrote hi hn ht (new := s) ⟨h1, fun a h => by rw [h2] at h; cases h⟩
    exact ⟨st', s, by rw [h4]; exact h5, h6, by rw [Is, h6.sl]; exact h3 _⟩
  have hinit : ∀ (mk : Nat → Slot) (c : Cell), c.elems = [] → CellOk c → (∀ s, (mk s).plain = true ∧ (mk s).sto = some s ∧ Fits (mk s) c) →
      (∀ (st' : St) s, (st'.store s).cell = c → SlotIs (content st') l.val (mk s)) → assignLit t l = initSlot t mk c →
      ∃ st' new, assignLit t l st = .ok () st' ∧ Wrote st st' t new ∧ Is st' t l.val := by
    intro mk c h1 h2 h3 h4 h5
    obtain ⟨st', h6, h7, h8⟩ := init_wrote hi hn ht h1 h2 h3
    exact ⟨st', _, by rw [h5]; exact h6, h7, by rw [Is, h7.sl]; exact h4 _ _ h8⟩
  cases l with
  | null => exact hset .null rfl rfl (fun _ => by rw [Lit.val, SlotIs]) rfl
  | sca c => exact hset (.sca c) rfl rfl (fun _ => by cases c <;> rw [Lit.val, Sca.val, SlotIs]) rfl
  | str b => exact hinit .str (.str b) rfl trivial (fun s => ⟨rfl, rfl, trivial⟩) (fun st' s h => by rw [Lit.val, SlotIs]; exact ⟨s, rfl, by rw [content, h]; rfl⟩) rfl
  | list => exact hinit .list (.list 0 []) rfl trivial (fun s => ⟨rfl, rfl, trivial⟩) (fun st' s h => by rw [Lit.val, SlotIs]; exact ⟨s, [], rfl, by rw [content, h]; rfl, rfl⟩) rfl
  | map => exact hinit .map (.map []) rfl (by simp [CellOk, AMap.Sorted]) (fun s => ⟨rfl, rfl, trivial⟩) (fun st' s h => by rw [Lit.val, SlotIs]; exact ⟨s, [], rfl, by rw [content, h]; rfl, rfl⟩) rfl
  | blob b => exact hinit .blob (.blob b) rfl trivial (fun s => ⟨rfl, rfl, trivial⟩) (fun st' s h => by rw [Lit.val, SlotIs]; exact ⟨s, rfl, by rw [content, h]; rfl⟩) rfl

/-! ## `Erase` and `Clear` -/

/-- The operation ended with `err`; `t` is `v` now and only `t` and its elements may have changed. -/
structure Did (r : Res Unit) (err : Option Err) (st st' : St) (t : Nat) (v : Val) : Prop where
  ends : Ends r () err st'
  inv : Inv st'
  fr : Fr st st'
  live : st'.live t
  is : Is st' t v
  loc : Local st st' t

theorem Did.same {r : Res Unit} {err : Option Err} {st : St} (hi : Inv st) {t : Nat} {v : Val} (ht : st.live t) (hv : Is st t v) (h : Ends r () err st) : Did r err st st t v :=
  ⟨h, hi, .refl hi.toInv0, ht, hv, .refl st t⟩

theorem is_scalar {c : Nat → Content} {v : Val} {x : Slot} (h : SlotIs c v x) (h0 : x ≠ .null) (hl : ∀ s, x ≠ .list s) (hm : ∀ s, x ≠ .map s) :
    (∀ e, Verif.eraseElem v e = (v, some .unexpectedType)) ∧ ∀ w, Verif.append v w = (v, some .unableToConvert) := by
  cases v <;> rw [SlotIs] at h
  case null => exact absurd h h0
  case list => obtain ⟨s, _, h, _⟩ := h; exact absurd h (hl s)
  case map => obtain ⟨s, _, h, _⟩ := h; exact absurd h (hm s)
  all_goals exact ⟨fun e => by cases e <;> rfl, fun w => rfl⟩

theorem erase_none {α : Type} {m : List (Bytes × α)} {k : Bytes} (h : AMap.get m k = none) : AMap.erase m k = m := by
  induction m with
  | nil => rfl
  | cons p m ih =>
    obtain ⟨k', v⟩ := p
    rw [AMap.get] at h
    rw [AMap.erase]
    by_cases e : k' = k
    · rw [if_pos e] at h; cases h
    · rw [if_neg e] at h ⊢
      rw [ih h]

theorem allIs_dropLast {c : Nat → Content} {vs : List Val} {xs : List Slot} (h : AllIs c vs xs) : AllIs c vs.dropLast xs.dropLast := by
  have hl := (allIs_iff.1 h).1
  rw [List.dropLast_eq_take, List.dropLast_eq_take, hl]
  exact allIs_take h _

theorem erase_did {st : St} (hi : Inv st) (hn : ¬ Cyc st) {t : Nat} {v : Val} (ht : Value st t) (hv : Is st t v) (e : PathElem) :
    ∃ st', Did (eraseElem t e st) (Verif.eraseElem v e).2 st st' t (Verif.eraseElem v e).1 := by
  rw [eraseElem, bind_ok (run_plain ht.1 ht.2)]
  have hv0 := hv
  rw [Is] at hv
  cases hs : st.sl t with
  | null =>
    have : v = .null := is_null (by rw [hs] at hv; exact hv)
    subst this
    exact ⟨st, by cases e <;> exact .same hi ht.1 hv0 rfl⟩
  | list s =>
    obtain ⟨h1, cap, es, h2⟩ := cell_list hi.toInv0 ht.1 hs
    have hel : st.el s = es := by rw [St.el, h2]; rfl
    rw [hs] at hv
    obtain ⟨vs, rfl, hvs⟩ := is_list hv (xs := es.map st.sl) (by rw [content, h2]; rfl)
    have hlen : vs.length = es.length := by rw [(allIs_iff.1 hvs).1, List.length_map]
    cases e with
    | key k => exact ⟨st, .same hi ht.1 hv0 rfl⟩
    | index i =>
      simp only [Verif.eraseElem, eraseIndex, hlen]
      rw [bind_ok (run_load h1)]
      simp only [h2]
      by_cases c1 : (i + 1).toNat < es.length % 2 ^ 32
      · simp only [if_pos c1]
        have hmod := Nat.mod_le es.length (2 ^ 32)
        by_cases c2 : i.toNat < es.length
        · simp only [if_pos c2, List.getElem?_eq_getElem c2]
          have hm : es[i.toNat] ∈ st.el s := by rw [hel]; exact List.getElem_mem c2
          have hc := hi.elems s _ h1 hm
          obtain ⟨st', g1, g2⟩ := write_wrote hi hn (x := es[i.toNat]) ⟨hc.1, hc.2.1⟩ (null_good st)
          obtain ⟨k1, k2, k3, k4⟩ := g2.elem hi.toInv0 hn ht (e := .index i) (by unfold elem?; simp only [hs, h2]; exact List.getElem?_eq_getElem c2) hv0 (w := .null) (by rw [SlotIs])
          exact ⟨st', g1, g2.inv, g2.fr, k1, k3, k4⟩
        · simp only [if_neg c2, List.getElem?_eq_none (Nat.le_of_not_lt c2)]
          exact ⟨st, .same hi ht.1 hv0 rfl⟩
      · simp only [if_neg c1]
        by_cases c2 : i.toNat < es.length % 2 ^ 32
        · simp only [if_pos c2]
          obtain ⟨st', g1, g2, g3, g4, g5, g6, g7, g8, g9, g10⟩ := drop_is hi hn ht (s := s) (by rw [hs]; rfl) (c := .list cap es.dropLast) (D := es.drop (es.length - 1))
            (fun sl h => by rw [h2] at h; exact fits_list sl h) trivial (fun x hx => by rw [hel]; exact List.mem_of_mem_drop hx)
            (fun x => by rw [hel, Cell.elems, List.dropLast_eq_take]; exact take_drop_nodup (hel ▸ hi.nodup s h1) _ x)
            (List.Nodup.sublist (by rw [Cell.elems, List.dropLast_eq_take]; exact List.take_sublist _ _) (hel ▸ hi.nodup s h1))
          refine ⟨st', g1, g2, g3.toFr, g4, ?_, g8⟩
          rw [Is, g5, hs, SlotIs]
          refine ⟨s, es.dropLast.map st.sl, rfl, g9, ?_⟩
          rw [List.map_dropLast]
          refine allIs_mono (allIs_dropLast hvs) fun x hx v h => ?_
          rw [← List.map_dropLast] at hx
          obtain ⟨y, hy, rfl⟩ := List.mem_map.1 hx
          exact g10 y hy v h
        · simp only [if_neg c2]
          exact ⟨st, .same hi ht.1 hv0 rfl⟩
  | map s =>
    obtain ⟨h1, m, h2⟩ := cell_map hi.toInv0 ht.1 hs
    have hel : st.el s = m.map (·.2) := by rw [St.el, h2]; rfl
    rw [hs] at hv
    obtain ⟨mv, rfl, hmv⟩ := is_map hv (xs := m.map fun p => (p.1, st.sl p.2)) (by rw [content, h2]; rfl)
    cases e with
    | index i => exact ⟨st, .same hi ht.1 hv0 rfl⟩
    | key k =>
      simp only [Verif.eraseElem, eraseKey]
      rw [bind_ok (run_load h1)]
      simp only [h2]
      have hsort : AMap.Sorted m := by have := hi.cellOk s h1; rwa [h2] at this
      cases hg : AMap.get m k with
      | none =>
        have : AMap.erase mv k = mv := by
          refine erase_none ?_
          rcases mapIs_get hmv k with h | ⟨_, _, _, h, _⟩
          · exact h.1
          · rw [get_map_snd, hg] at h; cases h
        simp only [this]
        exact ⟨st, .same hi ht.1 hv0 rfl⟩
      | some x =>
        obtain ⟨a, b, h3, h4⟩ := erase_split hg
        have hel : st.el s = a.map (·.2) ++ x :: b.map (·.2) := by rw [St.el, h2, h3]; simp [Cell.elems]
        have hel2 : (Cell.map (AMap.erase m k)).elems = a.map (·.2) ++ b.map (·.2) := by rw [h4]; simp [Cell.elems]
        have hnd := hi.nodup s h1
        rw [hel, List.nodup_append, List.nodup_cons] at hnd
        obtain ⟨st', g1, g2, g3, g4, g5, g6, g7, g8, g9, g10⟩ := drop_is hi hn ht (s := s) (by rw [hs]; rfl) (c := .map (AMap.erase m k)) (D := [x])
          (fun sl h => by rw [h2] at h; exact fits_map sl h) (AMap.sorted_erase hsort k) (fun y hy => by rw [List.mem_singleton.1 hy, hel]; simp)
          (fun y => by
            rw [hel2, hel, List.mem_append, List.mem_append, List.mem_cons, List.mem_singleton]
            constructor
            · rintro (h | h)
              · exact ⟨.inl h, hnd.2.2 y h x (by simp)⟩
              · exact ⟨.inr (.inr h), by rintro rfl; exact hnd.2.1.1 h⟩
            · rintro ⟨h | h | h, h5⟩
              · exact .inl h
              · exact absurd h h5
              · exact .inr h)
          (by
            rw [hel2, List.nodup_append]
            exact ⟨hnd.1, hnd.2.1.2, fun y hy z hz => hnd.2.2 y hy z (List.mem_cons_of_mem _ hz)⟩)
        refine ⟨st', g1, g2, g3.toFr, g4, ?_, g8⟩
        rw [Is, g5, hs, SlotIs]
        refine ⟨s, (AMap.erase m k).map fun p => (p.1, st.sl p.2), rfl, by rw [g9]; rfl, ?_⟩
        have := mapIs_erase hmv k
        rw [← erase_map_snd] at this
        refine mapIs_mono this fun p hp v h => ?_
        obtain ⟨y, hy, rfl⟩ := List.mem_map.1 hp
        exact g10 y.2 (List.mem_map.2 ⟨y, hy, rfl⟩) v h
  | str s =>
    rw [(is_scalar hv (by rw [hs]; simp) (by rw [hs]; simp) (by rw [hs]; simp)).1 e]
    exact ⟨st, by cases e <;> exact .same hi ht.1 hv0 rfl⟩
  | blob s =>
    rw [(is_scalar hv (by rw [hs]; simp) (by rw [hs]; simp) (by rw [hs]; simp)).1 e]
    exact ⟨st, by cases e <;> exact .same hi ht.1 hv0 rfl⟩
  | sca x =>
    rw [(is_scalar hv (by rw [hs]; simp) (by rw [hs]; simp) (by rw [hs]; simp)).1 e]
    exact ⟨st, by cases e <;> exact .same hi ht.1 hv0 rfl⟩
  | _ => rw [hs] at hv; exact absurd hv.plain (by simp [Slot.plain])

theorem clear_did {st : St} (hi : Inv st) (hn : ¬ Cyc st) {t : Nat} {v : Val} (ht : Value st t) (hv : Is st t v) :
    ∃ st', Did (clearObj t st) none st st' t (clearVal v) := by
  rw [clearObj, bind_ok (run_plain ht.1 ht.2)]
  have hv0 := hv
  rw [Is] at hv
  cases hs : st.sl t with
  | null =>
    have : v = .null := is_null (by rw [hs] at hv; exact hv)
    subst this
    exact ⟨st, .same hi ht.1 hv0 rfl⟩
  | list s =>
    obtain ⟨h1, cap, es, h2⟩ := cell_list hi.toInv0 ht.1 hs
    have hel : st.el s = es := by rw [St.el, h2]; rfl
    rw [hs] at hv
    obtain ⟨vs, rfl, hvs⟩ := is_list hv (xs := es.map st.sl) (by rw [content, h2]; rfl)
    simp only
    rw [bind_ok (run_load h1)]
    simp only [h2]
    obtain ⟨st', g1, g2, g3, g4, g5, g6, g7, g8, g9, g10⟩ := drop_is hi hn ht (s := s) (by rw [hs]; rfl) (c := .list cap []) (D := es)
      (fun sl h => by rw [h2] at h; exact fits_list sl h) trivial (fun x hx => by rw [hel]; exact hx) (fun x => by rw [hel]; simp [Cell.elems]) (by simp [Cell.elems])
    refine ⟨st', g1, g2, g3.toFr, g4, ?_, g8⟩
    rw [Is, g5, hs, clearVal, SlotIs]
    exact ⟨s, [], rfl, g9, rfl⟩
  | map s =>
    obtain ⟨h1, m, h2⟩ := cell_map hi.toInv0 ht.1 hs
    have hel : st.el s = m.map (·.2) := by rw [St.el, h2]; rfl
    rw [hs] at hv
    obtain ⟨vs, rfl, hvs⟩ := is_map hv (xs := m.map fun p => (p.1, st.sl p.2)) (by rw [content, h2]; rfl)
    simp only
    rw [bind_ok (run_load h1)]
    simp only [h2]
    obtain ⟨st', g1, g2, g3, g4, g5, g6, g7, g8, g9, g10⟩ := drop_is hi hn ht (s := s) (by rw [hs]; rfl) (c := .map []) (D := m.map (·.2))
      (fun sl h => by rw [h2] at h; exact fits_map sl h) (by simp [CellOk, AMap.Sorted]) (fun x hx => by rw [hel]; exact hx) (fun x => by rw [hel]; simp [Cell.elems])
      (by simp [Cell.elems])
    refine ⟨st', g1, g2, g3.toFr, g4, ?_, g8⟩
    rw [Is, g5, hs, clearVal, SlotIs]
    exact ⟨s, [], rfl, g9, rfl⟩
  | str s =>
    obtain ⟨h1, b, h2⟩ := cell_str hi.toInv0 ht.1 hs
    rw [hs] at hv
    have := is_str hv (b := b) (by rw [content, h2]; rfl)
    subst this
    simp only
    rw [bind_ok (run_load h1)]
    simp only [h2]
    have hoth : ∀ y, y ≠ s → (st.setCell s (.str [])).store y = st.store y := fun y hy => by simp [St.setCell, hy]
    refine ⟨st.setCell s (.str []), run_modify .., setCell_inv hi h1 h2, setCell_fr hi h2, ht.1, ?_, fun _ _ _ _ _ => rfl, fun b hb _ _ hbs => ?_⟩
    · rw [Is, clearVal, SlotIs]
      exact ⟨s, hs, by simp [content, St.setCell, contentOf]⟩
    · rw [content, content, hoth b (by rintro rfl; exact hbs (by rw [hs]; rfl))]; rfl
  | blob s =>
    obtain ⟨h1, b, h2⟩ := cell_blob hi.toInv0 ht.1 hs
    rw [hs] at hv
    have := is_blob hv (b := b) (by rw [content, h2]; rfl)
    subst this
    obtain ⟨st', g1, g2⟩ := write_wrote hi hn ht (null_good st)
    exact ⟨st', g1, g2.inv, g2.fr, g2.live, by rw [Is, g2.sl]; exact rfl, g2.loc hi.toInv0⟩
  | sca x =>
    rw [hs] at hv
    have := is_sca hv
    subst this
    obtain ⟨st', g1, g2⟩ := write_wrote hi hn ht (null_good st)
    refine ⟨st', g1, g2.inv, g2.fr, g2.live, ?_, g2.loc hi.toInv0⟩
    have : clearVal x.val = .null := by cases x <;> rfl
    rw [Is, g2.sl, this, SlotIs]
  | _ => rw [hs] at hv; exact absurd hv.plain (by simp [Slot.plain])

/-! ## Parameters taken by value -/

/-- `u` was copied into a local variable. -/
structure Copied (st st2 : St) (u : Nat) : Prop where
  inv : Inv st2
  cyc : ¬ Cyc st2
  safe : Safe (st.new none [.null]) st2
  obj : ∀ z, z ≠ st.nObj → st2.obj z = st.obj z
  store : st2.store = st.store
  nStore : st2.nStore = st.nStore
  live : st2.live st.nObj
  home : (st2.obj st.nObj).home = none
  sl : st2.sl st.nObj = st.sl u

theorem copied {st : St} (hi : Inv st) (hn : ¬ Cyc st) (grow : Nat → Nat → Nat) {q u : Nat} (hb : About st q u) (hu : Value st u) :
    ∃ st2, assign grow q st.nObj (st.new none [.null]) = .ok () st2 ∧ Copied st st2 u := by
  have hT := temp_temp hi
  generalize hst1 : st.new none [.null] = st1 at hT
  obtain ⟨hu1, eu, hud⟩ := hT.live hi.toInv0 hu.1
  have hb1 := hT.about hi.toInv0 hb hu.1
  have hqd : q ≠ st.nObj := by have := hi.objBound q hb.1; omega
  obtain ⟨h1, hi2⟩ := copy_ok hT.inv grow hb1 hu1 (by rw [St.sl, eu]; exact hu.2) hT.fresh.value hT.fresh.null
  have hcopies := assign_temp hT.inv grow hT.fresh hb1.1 hb1.2.1 hqd
  rw [Tri, h1] at hcopies
  refine ⟨_, h1, hi2, fun hh => hn (hT.cyc (hcopies.bk.cyc hT.inv.toInv0 hh)), by rw [hst1]; exact ⟨hi2, hcopies.bk.toFr⟩, fun z hz => ?_, hT.store, hT.nStore, ?_, ?_, ?_⟩
  · rw [← hT.obj z hz]; simp [St.setSlot, St.setObj, hz]
  · exact (setSlot_live ..).2 hT.fresh.live
  · rw [setSlot_home]; exact hT.fresh.home
  · rw [setSlot_sl, if_pos rfl, St.sl, eu]

theorem Copied.edge {st st2 : St} {u : Nat} (h : Copied st st2 u) {a b : Nat} (he : Edge st2 a b) : Edge st a b := by
  obtain ⟨h1, e, h2, h3⟩ := he
  have hd : e ≠ st.nObj := by
    rintro rfl
    have := (h.inv.elems a _ h1 h2).2.2
    rw [h.home] at this; cases this
  rw [St.liveS, h.store] at h1
  rw [St.el, h.store] at h2
  rw [St.sl, h.obj e hd] at h3
  exact ⟨h1, e, h2, h3⟩

theorem Copied.below {st st2 : St} {u : Nat} (h : Copied st st2 u) {a b : Nat} (he : Below st2 a b) : Below st a b := he.mono fun _ _ => h.edge

theorem Copied.old {st st2 : St} {u : Nat} (h : Copied st st2 u) (hi : Inv0 st) {z : Nat} (hz : st.live z) : z ≠ st.nObj ∧ st2.obj z = st.obj z := by
  have := hi.objBound z hz
  have : z ≠ st.nObj := by omega
  exact ⟨this, h.obj z this⟩

theorem Copied.content {st st2 : St} {u : Nat} (h : Copied st st2 u) (hi : Inv0 st) {s : Nat} (hs : st.liveS s) : content st2 s = content st s :=
  content_congr (by rw [h.store]) fun e he => by rw [St.sl, (h.old hi (hi.elems s e hs he).1).2]

theorem Copied.slotIs {st st2 : St} {u : Nat} (h : Copied st st2 u) (hi : Inv0 st) {w : Val} {x : Slot} (hw : SlotIs (Ref.content st) w x) (hl : ∀ a, x.sto = some a → st.liveS a) :
    SlotIs (Ref.content st2) w x :=
  is_frame hi h.inv.toInv0 hw hl (fun a ha => by rw [St.liveS, h.store]; exact hl a ha) fun a _ ha hb _ => h.content hi (hb.alive hi (hl a ha))

theorem Copied.outside {st st2 : St} {u t : Nat} (h : Copied st st2 u) (hi : Inv0 st) (hu : st.live u) (ht : st.live t) (ho : Outside st u t) {a : Nat} (ha : (st.sl u).sto = some a) :
    OutsideS st2 a t := by
  obtain ⟨_, e⟩ := h.old hi ht
  refine ⟨by rw [St.liveS, h.store]; exact hi.stoLive u a hu ha, fun b hb hbl => ?_, fun b hb hbl => ?_⟩
  · rw [e] at hb; exact ho.home a b ha hb (h.below hbl)
  · rw [St.sl, e] at hb; exact ho.sto a b ha hb (h.below hbl)

theorem Copied.create {st st2 : St} {u o t : Nat} (h : Copied st st2 u) (hi : Inv0 st) (grow : Nat → Nat → Nat) (ha : About st o t) (ht : st.live t) : targetCreate grow o st2 = .ok t st2 := by
  obtain ⟨_, h1⟩ := h.old hi ha.1
  obtain ⟨_, h2⟩ := h.old hi ht
  have : About st2 o t := by rw [About, St.live, St.sl, St.sl, h1, h2]; exact ha
  rw [this.targetCreate h.inv.toInv0, if_pos (by rw [St.live, h2]; exact ht)]

theorem ends_bind {m : M Unit} {st st' : St} {err : Option Err} {a : α} (h : Ends (m st) () err st') : Ends ((m >>= fun _ => pure a) st) a err st' := by
  cases err with
  | none => exact (bind_ok h).trans rfl
  | some e => exact bind_thr h

theorem bind_bind (m : M α) (f : α → M β) (g : β → M γ) (st : St) : (m >>= fun a => f a >>= g) st = ((m >>= f) >>= g) st := by
  rw [run_bind, run_bind, run_bind]
  cases m st with
  | ok a st1 => simp only [run_bind]
  | thr e st1 => rfl
  | ub => rfl

theorem ends_temp {r : Res α} {a : α} {err : Option Err} {d : Nat} {st' : St} (h : Ends r a err st') :
    Ends (match (generalizing := false) r with | .ok a st' => .ok a (st'.kill [d]).collect | .thr e st' => .thr e (st'.kill [d]).collect | .ub => .ub) a err (st'.kill [d]).collect := by
  cases err with
  | none => rw [show r = _ from h]; exact rfl
  | some e => rw [show r = _ from h]; exact rfl

/-- The copy is destroyed at the end. -/
theorem Copied.close {st st2 st3 : St} {u t : Nat} {v : Val} (h : Copied st st2 u) (hi : Inv st) (ht : st.live t) (h3 : Safe st2 st3) (hl : Local st2 st3 t) (hv : Is st3 t v)
    (hlt : (st3.kill [st.nObj]).collect.live t) :
    Inv (st3.kill [st.nObj]).collect ∧ Fr st (st3.kill [st.nObj]).collect ∧ Is (st3.kill [st.nObj]).collect t v ∧ Local st (st3.kill [st.nObj]).collect t := by
  have hT := temp_temp hi
  obtain ⟨hsh, hc, hi', hf⟩ := hT.close hi.toInv0 (safe_trans hT.inv.toInv0 h.safe.2 h3)
  have hobj : ∀ z, (st3.kill [st.nObj]).collect.live z → st3.live z ∧ (st3.kill [st.nObj]).collect.obj z = st3.obj z := fun z hz => by
    obtain ⟨h1, h2⟩ := hc.obj z hz
    exact ⟨((hsh.live z).1 h1).1, by rw [h2, hsh.same h1]⟩
  have hcell : ∀ s, ((st3.kill [st.nObj]).collect.store s).cell = (st3.store s).cell := fun s => (hc.store s).1
  have hsto : ∀ s, (st3.kill [st.nObj]).collect.liveS s → st3.liveS s := fun s hs => (hc.store s).2 hs
  have hcon : ∀ s, (st3.kill [st.nObj]).collect.liveS s → Ref.content (st3.kill [st.nObj]).collect s = Ref.content st3 s := fun s hs =>
    content_congr (hcell s) fun e he => by
      rw [St.sl, (hobj e (hi'.elems s e hs (by rw [St.el, hcell]; exact he)).1).2]
  generalize (st3.kill [st.nObj]).collect = st' at hc hi' hf hobj hcell hsto hcon hlt ⊢
  refine ⟨hi', hf, ?_, fun z hz hz' hzt hzs => ?_, fun s hs hs' hh hss => ?_⟩
  · obtain ⟨h1, h2⟩ := hobj t hlt
    rw [Is] at hv ⊢
    rw [St.sl, h2]
    exact is_frame h3.1.toInv0 hi'.toInv0 hv (fun a => h3.1.stoLive t a h1) (fun a ha => hi'.stoLive t a hlt (by rw [St.sl, h2]; exact ha)) fun a s _ _ hs => hcon s hs
  · obtain ⟨h1, h2⟩ := hobj z hz'
    obtain ⟨_, h4⟩ := h.old hi.toInv0 hz
    obtain ⟨_, h5⟩ := h.old hi.toInv0 ht
    rw [St.sl, h2, ← St.sl, hl.slots z (by rw [St.live, h4]; exact hz) h1 hzt (by rw [St.sl, h5, h4]; exact hzs), St.sl, h4]
  · obtain ⟨_, h5⟩ := h.old hi.toInv0 ht
    rw [hcon s hs', hl.cells s (by rw [St.liveS, h.store]; exact hs) (hsto s hs') (by rw [h5]; exact hh) (by rw [St.sl, h5]; exact hss), h.content hi.toInv0 hs]

/-- If something else owns the copied storage nothing else is destroyed. -/
theorem Copied.alive_shared {st st2 st3 : St} {u t c : Nat} (h : Copied st st2 u) (hi : Inv st) (ht : st.live t) (h3 : Safe st2 st3) (hlt : st3.live t) (hc : st3.live c) (hcd : c ≠ st.nObj)
    (hs : (st3.sl st.nObj).sto = (st3.sl c).sto) : (st3.kill [st.nObj]).collect.live t := by
  have hT := temp_temp hi
  obtain ⟨hsh, _⟩ := hT.close hi.toInv0 (safe_trans hT.inv.toInv0 h.safe.2 h3)
  rw [collect_id (kill_shared h3.1 hsh hc hcd hs)]
  exact (hsh.live t).2 ⟨hlt, by simpa using (h.old hi.toInv0 ht).1⟩

/-- Nor is `t` if it is not inside. -/
theorem Copied.alive_apart {st st2 st3 : St} {u t : Nat} (h : Copied st st2 u) (hi : Inv st) (ht : st.live t) (h3 : Inv st3) (hb : Bk st2 st3) (hl : Local st2 st3 t) (hlt : st3.live t)
    (ho : Outside st u t) : (st3.kill [st.nObj]).collect.live t := by
  have hT := temp_temp hi
  obtain ⟨htd, h5⟩ := h.old hi.toInv0 ht
  have ht2 : st2.live t := by rw [St.live, h5]; exact ht
  have hd3 : st3.live st.nObj := hb.top _ h.live h.home
  have hdsl : st3.sl st.nObj = st.sl u := by rw [hl.slots _ h.live hd3 (Ne.symm htd) (by rw [h.home]; simp), h.sl]
  obtain ⟨hsh, hc, _⟩ := hT.close hi.toInv0 (safe_trans hT.inv.toInv0 h.safe.2 ⟨h3, hb.toFr⟩)
  have hlk := (hsh.live t).2 ⟨hlt, by simpa using htd⟩
  refine Decidable.byContradiction fun hd => ?_
  obtain ⟨b, g1, g, g2, g3, g4⟩ := hc.deadObj (hsh.inv h3.toInv0) hlk hd
  rw [hsh.same hlk] at g1
  have hedge : ∀ a b, Edge (st3.kill [st.nObj]) a b → Edge st3 a b := by
    rintro a b ⟨e1, e, e2, e3⟩
    refine ⟨e1, e, e2, ?_⟩
    have hne : e ≠ st.nObj := by
      rintro rfl
      have := (h3.elems a _ e1 e2).2.2
      rw [(hb.old _ (h.inv.objBound _ h.live) hd3).2, h.home] at this
      cases this
    rw [St.sl, hsh.obj, if_neg (by simpa using hne)] at e3
    exact e3
  have hh2 : (st2.obj t).home = some b := by rw [← (hb.old t (h.inv.objBound t ht2) hlt).2]; exact g1
  have hbl : Below st g b := h.below (hb.below h.inv.toInv0 (g4.mono hedge) (h.inv.storeBound b (h.inv.home t b ht2 hh2).1))
  rcases h3.owned g g2 with h6 | ⟨y, h6, h7⟩
  · exact g3 (.inl h6)
  · by_cases e : y = st.nObj
    · rw [e, hdsl] at h7
      exact ho.home g b h7 (by rw [← h5]; exact hh2) hbl
    · have := (hsh.live y).2 ⟨h6, by simpa using e⟩
      exact g3 (.inr ⟨y, this, by rw [St.sl, hsh.same this]; exact h7⟩)

/-! ## `Append` -/

/-- What is outside of `t` and its elements is as it was. -/
theorem Copied.kept {st st2 st3 : St} {u t : Nat} {w : Val} (h : Copied st st2 u) (hi : Inv st) (hu : st.live u) (ht : st.live t) (ho : Outside st u t) (hw : Is st u w) (h3 : Inv st3)
    (hf : Fr st2 st3) (hl : Local st2 st3 t) : st3.live st.nObj ∧ (st3.obj st.nObj).home = none ∧ st3.sl st.nObj = st.sl u ∧ SlotIs (Ref.content st3) w (st.sl u) := by
  obtain ⟨htd, h5⟩ := h.old hi.toInv0 ht
  have hd3 : st3.live st.nObj := hf.top _ h.live h.home
  have hdsl : st3.sl st.nObj = st.sl u := by rw [hl.slots _ h.live hd3 (Ne.symm htd) (by rw [h.home]; simp), h.sl]
  have hul : ∀ a, (st.sl u).sto = some a → st.liveS a := fun a => hi.stoLive u a hu
  refine ⟨hd3, by rw [(hf.old _ (h.inv.objBound _ h.live) hd3).2, h.home], hdsl, ?_⟩
  refine hl.keep h.inv.toInv0 h3.toInv0 (h.slotIs hi.toInv0 hw hul) (fun a ha => by rw [St.liveS, h.store]; exact hul a ha)
    (fun a ha => h3.stoLive st.nObj a hd3 (by rw [hdsl]; exact ha)) (fun a b ha => (h.outside hi.toInv0 hu ht ho ha).home b) (fun a b ha => (h.outside hi.toInv0 hu ht ho ha).sto b)

/-- An element is added. -/
theorem push_did {st2 : St} (hi : Inv st2) (hn : ¬ Cyc st2) (grow : Nat → Nat → Nat) {t d s : Nat} {vs : List Val} {w : Val} (ht : Value st2 t) (hd : Value st2 d) (hdh : (st2.obj d).home = none) (hdt : d ≠ t)
    (hts : st2.sl t = .list s) (hv : Is st2 t (.list vs)) (hw : SlotIs (content st2) w (st2.sl d)) (hout : ∀ a, (st2.sl d).sto = some a → ¬ Below st2 a s) :
    ∃ cap es c, (st2.store s).cell = .list cap es ∧ st2.liveS s ∧
      Did (.ok () (st2.extend grow s cap es [st2.sl d])) none st2 (st2.extend grow s cap es [st2.sl d]) t (.list (vs ++ [w])) ∧
      (st2.extend grow s cap es [st2.sl d]).sl d = st2.sl d ∧
      (st2.extend grow s cap es [st2.sl d]).live c ∧ c ≠ d ∧ (st2.extend grow s cap es [st2.sl d]).sl c = st2.sl d := by
  obtain ⟨h1, cap, es, h2⟩ := cell_list hi.toInv0 ht.1 hts
  have hel : st2.el s = es := by rw [St.el, h2]; rfl
  rw [Is, hts] at hv
  obtain ⟨vs', e, hvs⟩ := is_list hv (xs := es.map st2.sl) (by rw [content, h2]; rfl)
  cases e
  obtain ⟨k1, k2, k3, k4⟩ := extend_is hi hn grow ht hts h2 hvs (slots := [st2.sl d]) (ws := [w]) (fun x hx => by rw [List.mem_singleton.1 hx]; exact hd.good hi.toInv0) rfl
    fun g => ⟨_, _, rfl, g.keep hi.toInv0 h1 hw (fun a => hi.stoLive d a hd.1) hout, rfl⟩
  have hes : ∀ x ∈ es, st2.live x := fun x hx => (hi.elems s x h1 (by rw [hel]; exact hx)).1
  obtain ⟨cap', es', g1, g2, g3, _⟩ := extend_elems grow (st := st2) (s := s) (cap := cap) (es := es) (slots := [st2.sl d]) fun x hx => hi.objBound x (hes x hx)
  have hdes : d ∉ es := fun hm => by
    have := (hi.elems s d h1 (by rw [hel]; exact hm)).2.2
    rw [hdh] at this; cases this
  have hd3 := g3 d (hi.objBound d hd.1) (.inl hdes)
  refine ⟨cap, es, ?_⟩
  generalize st2.extend grow s cap es [st2.sl d] = st3 at k1 k2 k3 k4 g1 g2 g3 hd3 ⊢
  obtain ⟨c, hc3, hcsl⟩ : ∃ c, c ∈ es' ∧ st3.sl c = st2.sl d := by
    have : st2.sl d ∈ es'.map st3.sl := by rw [g2]; simp
    obtain ⟨c, h1, h2⟩ := List.mem_map.1 this
    exact ⟨c, h1, h2⟩
  have hcl := k1.inv.elems s c k1.liveS (by rw [St.el, g1]; exact hc3)
  refine ⟨c, h2, h1, ⟨rfl, k1.inv, k1.fr, by rw [St.live, k3]; exact ht.1, k4, k1.loc hi.toInv0 h1 (by rw [hts]; rfl)⟩, by rw [St.sl, hd3], hcl.1, ?_, hcsl⟩
  rintro rfl
  have := hcl.2.2
  rw [hd3, hdh] at this; cases this

theorem append_did {st : St} (hi : Inv st) (hn : ¬ Cyc st) (grow : Nat → Nat → Nat) {q u t : Nat} {v w : Val} (hb : About st q u) (hu : Value st u) (ht : Value st t) (hv : Is st t v) (hw : Is st u w)
    (ho : Outside st u t) : ∃ st2 st3, assign grow q st.nObj (st.new none [.null]) = .ok () st2 ∧ Copied st st2 u ∧ Did (appendObj grow t st.nObj st2) (Verif.append v w).2 st2 st3 t (Verif.append v w).1 ∧
      (st3.kill [st.nObj]).collect.live t := by
  obtain ⟨st2, h1, h2⟩ := copied hi hn grow hb hu
  obtain ⟨htd, h5⟩ := h2.old hi.toInv0 ht.1
  have hv2 : Is st2 t v := by rw [Is, St.sl, h5]; exact h2.slotIs hi.toInv0 hv fun a => hi.stoLive t a ht.1
  have ht2 : Value st2 t := by rw [Value, St.live, St.sl, h5]; exact ht
  have hw2 : SlotIs (content st2) w (st2.sl st.nObj) := by rw [h2.sl]; exact h2.slotIs hi.toInv0 hw fun a => hi.stoLive u a hu.1
  have hd2 : Value st2 st.nObj := ⟨h2.live, by rw [h2.sl]; exact hu.2⟩
  refine ⟨st2, ?_⟩
  -- a list
  have push : ∀ {stB : St} {s : Nat} {vs : List Val}, Inv stB → Bk st2 stB → stB.live t → Local st2 stB t → (∀ s, (stB.sl t).sto = some s → (st2.sl t).sto = some s ∨ st2.nStore ≤ s) →
      (∀ a, OutsideS st2 a t → OutsideS stB a t) → stB.sl t = .list s → Is stB t (.list vs) → asList t st2 = .ok () stB → Verif.append v w = (.list (vs ++ [w]), none) →
      ∃ st3, Did (appendObj grow t st.nObj st2) (Verif.append v w).2 st2 st3 t (Verif.append v w).1 ∧ (st3.kill [st.nObj]).collect.live t := by
    intro stB s vs k1 k2 k3 k4 k5 k6 k7 k8 k9 k10
    obtain ⟨g1, g2, g3, g4⟩ := h2.kept hi hu.1 ht.1 ho hw k1 k2.toFr k4
    obtain ⟨cap, es, c, p1, p2, p3, p4, p5, p6, p7⟩ := push_did k1 (fun h => h2.cyc (k2.cyc h2.inv.toInv0 h)) grow (d := st.nObj) (w := w) ⟨k3, by rw [k7]; rfl⟩ ⟨g1, by rw [g3]; exact hu.2⟩ g2 (Ne.symm htd) k7 k8
      (by rw [g3]; exact g4) (fun a ha => (k6 a (h2.outside hi.toInv0 hu.1 ht.1 ho (by rw [← g3]; exact ha))).sto s (by rw [k7]; rfl))
    have hf := k2.toFr.trans p3.fr h2.inv.toInv0
    refine ⟨_, ⟨?_, p3.inv, hf, p3.live, by rw [k10]; exact p3.is, k4.trans h2.inv.toInv0 p3.loc k2.toFr p3.fr ht2.1 k3 k5⟩,
      h2.alive_shared hi ht.1 ⟨p3.inv, hf⟩ p3.live p5 p6 (by rw [p7, p4])⟩
    rw [k10]
    show _ = _
    rw [appendObj, bind_ok k9, bind_ok (run_plain k3 (by rw [k7]; rfl)), k7]
    simp only
    rw [bind_ok (run_plain g1 (by rw [g3]; exact hu.2)), bind_ok (run_load p2)]
    simp only [p1]
    rw [run_modify]
  have other : st2.sl t ≠ .null → (∀ s, st2.sl t ≠ .list s) → Verif.append v w = (v, some .unableToConvert) →
      ∃ st3, Did (appendObj grow t st.nObj st2) (Verif.append v w).2 st2 st3 t (Verif.append v w).1 ∧ (st3.kill [st.nObj]).collect.live t := by
    intro k1 k2 k3
    refine ⟨st2, ?_, h2.alive_apart hi ht.1 h2.inv (.refl h2.inv.toInv0) (.refl st2 t) ht2.1 ho⟩
    rw [k3]
    refine .same h2.inv ht2.1 hv2 ?_
    show _ = _
    have has : asList t st2 = .ok () st2 := by
      rw [asList, bind_ok (run_plain ht2.1 ht2.2)]
      cases hs : st2.sl t <;> first | exact absurd hs k1 | rfl
    rw [appendObj, bind_ok has, bind_ok (run_plain ht2.1 ht2.2)]
    cases hs : st2.sl t <;> first | exact absurd hs (k2 _) | rfl
  have fin : ∃ st3, Did (appendObj grow t st.nObj st2) (Verif.append v w).2 st2 st3 t (Verif.append v w).1 ∧ (st3.kill [st.nObj]).collect.live t := by
    have hv3 := hv2
    rw [Is] at hv3
    cases hs : st2.sl t with
    | null =>
      rw [hs] at hv3
      have := is_null hv3
      subst this
      obtain ⟨stB, g1, g2, g3, g4⟩ := open_is h2.inv h2.cyc ht2 hs (mk := .list) (c := .list 0 []) (v := .list []) rfl trivial (fun s => ⟨rfl, rfl, trivial⟩)
        fun st' h => by rw [SlotIs]; exact ⟨_, [], rfl, by rw [content, h]; rfl, rfl⟩
      exact push g2.inv g2.bk g2.live g2.loc (fun s h => .inr (g2.sto s h)) g2.out g3 g2.is (by rw [asList, bind_ok (run_plain ht2.1 ht2.2), hs]; exact g1) rfl
    | list s =>
      obtain ⟨p1, cap, es, p2⟩ := cell_list h2.inv.toInv0 ht2.1 hs
      rw [hs] at hv3
      obtain ⟨vs, rfl, _⟩ := is_list hv3 (xs := es.map st2.sl) (by rw [content, p2]; rfl)
      exact push h2.inv (.refl h2.inv.toInv0) ht2.1 (.refl st2 t) (fun s h => .inl h) (fun _ h => h) hs hv2 (by rw [asList, bind_ok (run_plain ht2.1 ht2.2), hs]; rfl) rfl
    | map s =>
      obtain ⟨p1, m, p2⟩ := cell_map h2.inv.toInv0 ht2.1 hs
      rw [hs] at hv3
      obtain ⟨vs, rfl, _⟩ := is_map hv3 (xs := m.map fun p => (p.1, st2.sl p.2)) (by rw [content, p2]; rfl)
      exact other (by rw [hs]; simp) (by rw [hs]; simp) rfl
    | _ => exact other (by rw [hs]; simp) (by rw [hs]; simp) ((is_scalar hv3 (by rw [hs]; simp) (by rw [hs]; simp) (by rw [hs]; simp)).2 w)
  obtain ⟨st3, f1, f2⟩ := fin
  exact ⟨st3, h1, h2, f1, f2⟩

/-! ## `Set` -/

theorem set_did {st : St} (hi : Inv st) (hn : ¬ Cyc st) (grow : Nat → Nat → Nat) {q u t : Nat} {v w : Val} (hb : About st q u) (hu : Value st u) (ht : Value st t) (hv : Is st t v) (hw : Is st u w)
    (ho : Outside st u t) (e : PathElem) : ∃ st2 st3, assign grow q st.nObj (st.new none [.null]) = .ok () st2 ∧ Copied st st2 u ∧
      Did ((mkElem grow t e >>= fun c => assign grow st.nObj c) st2) (setElem v e w).2 st2 st3 t (setElem v e w).1 ∧ (st3.kill [st.nObj]).collect.live t := by
  obtain ⟨st2, h1, h2⟩ := copied hi hn grow hb hu
  obtain ⟨htd, h5⟩ := h2.old hi.toInv0 ht.1
  have hv2 : Is st2 t v := by rw [Is, St.sl, h5]; exact h2.slotIs hi.toInv0 hv fun a => hi.stoLive t a ht.1
  have ht2 : Value st2 t := by rw [Value, St.live, St.sl, h5]; exact ht
  rcases mkElem_is h2.inv h2.cyc grow ht2 hv2 e with ⟨c, st3, k1, k2⟩ | ⟨err, st3, k1, k2⟩
  · obtain ⟨v', k3, k4⟩ := k2.val
    have hn3 : ¬ Cyc st3 := fun h => h2.cyc (k2.bk.cyc h2.inv.toInv0 h)
    have hv3 : Value st3 t := ⟨k2.live, k2.plain⟩
    obtain ⟨s, e1, e2⟩ := elem_mem k2.inv.toInv0 hv3 k2.elem
    have hs3 := k2.inv.stoLive t s k2.live e1
    have hc := k2.inv.elems s c hs3 e2
    obtain ⟨g1, g2, g3, g4⟩ := h2.kept hi hu.1 ht.1 ho hw k2.inv k2.bk.toFr k2.loc
    have hdv : Value st3 st.nObj := ⟨g1, by rw [g3]; exact hu.2⟩
    obtain ⟨st4, p1, p2⟩ := assign_wrote k2.inv hn3 grow (q := st.nObj) (o := c) (t := c) (u := st.nObj) (target_plain hdv) (fun hs _ => targetCreate_plain (st := { st3 with holds := hs }) ⟨hc.1, hc.2.1⟩ grow) hdv ⟨hc.1, hc.2.1⟩
    have hcd : c ≠ st.nObj := by
      rintro rfl
      have := hc.2.2
      rw [g2] at this; cases this
    have hd4 : st4.live st.nObj := p2.fr.top _ g1 g2
    have hdsl4 := (p2.others _ hd4 (Ne.symm hcd)).2
    have hw4 : SlotIs (content st4) w (st3.sl st.nObj) := by
      rw [g3]
      have hul : ∀ a, (st.sl u).sto = some a → st3.liveS a := fun a ha => k2.inv.stoLive _ a g1 (by rw [g3]; exact ha)
      refine is_frame k2.inv.toInv0 p2.inv.toInv0 g4 hul (fun a ha => p2.inv.stoLive _ a hd4 (by rw [hdsl4, g3]; exact ha)) fun a b ha hab hb4 => ?_
      refine p2.content k2.inv.toInv0 (hab.alive k2.inv.toInv0 (hul a ha)) hb4 ?_
      rw [hc.2.2]
      intro he
      cases he
      exact k2.out a (h2.outside hi.toInv0 hu.1 ht.1 ho ha) s e1 hab
    obtain ⟨r1, r2, r3, r4⟩ := p2.elem k2.inv.toInv0 hn3 hv3 k2.elem k3 hw4
    have hf := k2.bk.toFr.trans p2.fr h2.inv.toInv0
    refine ⟨st2, st4, h1, h2, ⟨?_, p2.inv, hf, r1, by rw [k4]; exact r3, k2.loc.trans h2.inv.toInv0 r4 k2.bk.toFr p2.fr ht2.1 k2.live k2.sto⟩,
      h2.alive_shared hi ht.1 ⟨p2.inv, hf⟩ r1 p2.live hcd (by rw [p2.sl, hdsl4])⟩
    rw [k4]
    show _ = _
    rw [bind_ok k1]; exact p1
  · obtain ⟨v', k3, k4⟩ := k2.val
    refine ⟨st2, st3, h1, h2, ⟨?_, k2.inv, k2.bk.toFr, k2.live, by rw [k4]; exact k3, k2.loc⟩, h2.alive_apart hi ht.1 k2.inv k2.bk k2.loc k2.live ho⟩
    rw [k4]
    show _ = _
    rw [bind_thr k1]

end Verif.Ref
