import Verif.Ref.Resolve
/-!
# Writing objects, taking elements out
-/

namespace Verif.Ref
open Verif

/-- Contents an object can be given. -/
def Good (st : St) (s : Slot) : Prop := s.plain = true ∧ ∀ a, s.sto = some a → st.liveS a ∧ Fits s (st.store a).cell

theorem Value.good {st : St} (hi : Inv0 st) {x : Nat} (h : Value st x) : Good st (st.sl x) :=
  ⟨h.2, fun a ha => ⟨hi.stoLive x a h.1 ha, hi.fits x a h.1 ha⟩⟩

theorem null_good (st : St) : Good st .null := ⟨rfl, fun a h => by cases h⟩

theorem write_inv0 {st : St} (hi : Inv0 st) {x : Nat} {new : Slot} (hx : Value st x) (hn : Good st new) : Inv0 (st.setSlot x new) :=
  setSlot_inv0 hi hx.1 (by rw [hn.1, hx.2]) (by rw [plain_tgt hn.1, plain_tgt hx.2]) hn.2

/-- The way from `g` to where `x` is does not need `x`. -/
theorem below_setSlot {st : St} (hi : Inv0 st) {x h : Nat} {new : Slot} (hx : st.live x) (hh : (st.obj x).home = some h) {g : Nat}
    (hb : Below (st.setSlot x new) g h) : Below st g h := by
  induction hb with
  | refl => exact .refl _
  | head e _ ih =>
    rename_i a b c _
    by_cases ha : a = c
    · rw [ha]; exact .refl _
    · exact .head (edge_setSlot hi hx e (by rw [hh]; intro hc; cases hc; exact ha rfl)) (ih hh)

/-- An object destroyed by giving back what it owned is contained in itself. -/
theorem write_cyc {st st' : St} (hi : Inv0 st) {x : Nat} {new : Slot} (hx : Value st x) (h0 : Inv0 (st.setSlot x new))
    (hc : Collects (st.setSlot x new) st') (hu : ∀ g, st.liveS g → ¬ Owned (st.setSlot x new) g → (st.sl x).sto = some g) (hd : ¬ st'.live x) : Cyc st := by
  obtain ⟨h, h1, g, h2, h3, h4⟩ := hc.deadObj h0 ((setSlot_live ..).2 hx.1) hd
  rw [setSlot_home] at h1
  obtain ⟨h5, h6⟩ := hi.home x h hx.1 h1
  exact ⟨h, g, ⟨h5, x, h6, hu g h2 h3⟩, below_setSlot hi hx.1 h1 h4⟩

/-- `x` was given the contents `new`. -/
structure Written (st st' : St) (x : Nat) (new : Slot) : Prop where
  inv : Inv st'
  fr : Fr st st'
  live : st'.live x
  sl : st'.sl x = new
  col : Collects (st.setSlot x new) st'

theorem setSlot_spec {st : St} (hi : Inv st) {x : Nat} {new : Slot} (hx : Value st x) (hn : Good st new) :
    (setSlot x new st = .ub ∧ Cyc st) ∨ ∃ st', setSlot x new st = .ok () st' ∧ Written st st' x new := by
  have h0 := write_inv0 hi.toInv0 hx hn
  obtain ⟨hc, hi'⟩ := collect_inv h0
  rw [setSlot, bind_ok (run_deref hx.1), bind_ok (run_modify _ _)]
  by_cases hl : (st.setSlot x new).collect.live x
  · refine .inr ⟨_, by rw [bind_ok (run_deref hl)]; rfl, hi', fr_collect hi.toInv0 hc (setSlot_live _ _ _) (setSlot_home _ _ _) rfl rfl rfl (Nat.le_refl _) (fun _ _ => rfl) (evolve_setSlot (.write hx.2 hn.1)), hl, ?_, hc⟩
    rw [St.sl, (hc.obj x hl).2, ← St.sl, setSlot_sl, if_pos rfl]
  · exact .inl ⟨by rw [bind_ub (run_deref_dead hl)], write_cyc hi.toInv0 hx h0 hc (fun g => setSlot_unowned hi hx.1) hl⟩

/-- Writing an object that owned nothing. -/
theorem setSlot_null {st : St} (hi : Inv st) {x : Nat} {new : Slot} (hx : Value st x) (hs : (st.sl x).sto = none) (hn : Good st new) :
    setSlot x new st = .ok () (st.setSlot x new) ∧ Inv (st.setSlot x new) := by
  have h0 := write_inv0 hi.toInv0 hx hn
  have h1 : Inv (st.setSlot x new) := ⟨h0, fun g hg => Classical.byContradiction fun ho => by
    have := setSlot_unowned hi hx.1 hg ho; rw [hs] at this; cases this⟩
  refine ⟨?_, h1⟩
  rw [setSlot, bind_ok (run_deref hx.1), bind_ok (run_modify _ _), collect_id h1]
  rw [bind_ok (run_deref ((setSlot_live ..).2 hx.1))]; rfl

theorem newStore_live (st : St) (c : Cell) (s : Nat) : (st.newStore c).liveS s ↔ st.liveS s ∨ s = st.nStore := by
  simp only [St.liveS, St.newStore]
  by_cases e : s = st.nStore
  · simp [e]
  · simp [e]

theorem newStore_store (st : St) (c : Cell) {s : Nat} (h : s ≠ st.nStore) : (st.newStore c).store s = st.store s := by
  simp only [St.newStore, if_neg h]

theorem newStore_cell (st : St) (c : Cell) : ((st.newStore c).store st.nStore).cell = c := by simp [St.newStore]

theorem newStore_edge {st : St} {c : Cell} (he : c.elems = []) {a b : Nat} (h : Edge (st.newStore c) a b) : Edge st a b := by
  obtain ⟨h1, e, h2, h3⟩ := h
  by_cases ha : a = st.nStore
  · rw [ha, St.el, newStore_cell, he] at h2; cases h2
  · rw [St.el, newStore_store st c ha] at h2
    exact ⟨((newStore_live ..).1 h1).resolve_right ha, e, h2, h3⟩

/-- `x` was given a new, empty storage. -/
structure Made (st st' : St) (x : Nat) (new : Slot) (c : Cell) : Prop where
  inv : Inv st'
  bk : Bk st st'
  live : st'.live x
  sl : st'.sl x = new
  cell : (st'.store st.nStore).cell = c
  col : Collects ((st.newStore c).setSlot x new) st'

theorem initSlot_spec {st : St} (hi : Inv st) {x : Nat} {mk : Nat → Slot} {c : Cell} (hx : Value st x) (he : c.elems = []) (hc : CellOk c)
    (hmk : ∀ s, (mk s).plain = true ∧ (mk s).sto = some s ∧ Fits (mk s) c) :
    (initSlot x mk c st = .ub ∧ Cyc st) ∨ ∃ st', initSlot x mk c st = .ok () st' ∧ Made st st' x (mk st.nStore) c := by
  have hi1 := newStore_inv0 hi.toInv0 he hc
  have hx1 : Value (st.newStore c) x := hx
  have hg : Good (st.newStore c) (mk st.nStore) := by
    refine ⟨(hmk _).1, fun a ha => ?_⟩
    rw [(hmk _).2.1] at ha
    cases ha
    refine ⟨(newStore_live ..).2 (.inr rfl), ?_⟩
    rw [newStore_cell]; exact (hmk _).2.2
  have h0 := write_inv0 hi1 hx1 hg
  obtain ⟨hcl, hi'⟩ := collect_inv h0
  have hu : ∀ g, (st.newStore c).liveS g → ¬ Owned ((st.newStore c).setSlot x (mk st.nStore)) g → (st.sl x).sto = some g := by
    intro g hg ho
    rcases (newStore_live ..).1 hg with h | h
    · rcases hi.owned g h with h1 | ⟨y, h1, h2⟩
      · exact absurd (Or.inl h1) ho
      · by_cases e : y = x
        · rw [← e]; exact h2
        · exact absurd (Or.inr ⟨y, (setSlot_live ..).2 h1, by rw [setSlot_sl, if_neg e]; exact h2⟩) ho
    · exact absurd (Or.inr ⟨x, (setSlot_live ..).2 hx.1, by rw [setSlot_sl, if_pos rfl, h]; exact (hmk _).2.1⟩) ho
  rw [initSlot, bind_ok (run_deref hx.1), bind_ok (run_modify _ _)]
  by_cases hl : ((st.newStore c).setSlot x (mk st.nStore)).collect.live x
  · refine .inr ⟨_, by rw [bind_ok (run_deref hl)]; rfl, hi', ⟨?_, ?_⟩, hl, ?_, ?_, hcl⟩
    · exact fr_collect hi.toInv0 hcl (fun y => setSlot_live _ _ _ y) (fun y => setSlot_home _ _ _ y) rfl rfl rfl (Nat.le_succ _)
        (fun s hs => newStore_store st c (Nat.ne_of_lt hs)) (fun y hy => evolve_setSlot (st := st.newStore c) (.write hx.2 (hmk _).1) y hy)
    · intro a b h
      have h := hcl.edge a b h
      by_cases ha : (st.obj x).home = some a
      · obtain ⟨h1, e, h2, h3⟩ := h
        rw [setSlot_sl] at h3
        by_cases hex : e = x
        · right
          rw [if_pos hex, (hmk _).2.1] at h3
          cases h3
          exact ⟨Nat.le_refl _, hi.storeBound a (hi.home x a hx.1 ha).1⟩
        · left
          rw [if_neg hex] at h3
          exact newStore_edge he ⟨h1, e, h2, h3⟩
      · exact .inl (newStore_edge he (edge_setSlot hi1 hx1.1 h ha))
    · rw [St.sl, (hcl.obj x hl).2, ← St.sl, setSlot_sl, if_pos rfl]
    · rw [(hcl.store _).1]; exact newStore_cell st c
  · refine .inl ⟨by rw [bind_ub (run_deref_dead hl)], ?_⟩
    obtain ⟨a, b, h1, h2⟩ := write_cyc hi1 hx1 h0 hcl hu hl
    exact ⟨a, b, newStore_edge he h1, h2.mono fun _ _ h => newStore_edge he h⟩

/-- Giving a null object a new, empty storage changes nothing else. -/
theorem initSlot_null {st : St} (hi : Inv st) {x : Nat} {mk : Nat → Slot} {c : Cell} (hx : st.live x) (hn : st.sl x = .null) (he : c.elems = []) (hc : CellOk c)
    (hmk : ∀ s, (mk s).plain = true ∧ (mk s).sto = some s ∧ Fits (mk s) c) :
    initSlot x mk c st = .ok () ((st.newStore c).setSlot x (mk st.nStore)) ∧ Made st ((st.newStore c).setSlot x (mk st.nStore)) x (mk st.nStore) c := by
  have hv : Value st x := ⟨hx, by rw [hn]; rfl⟩
  have hi1 := newStore_inv0 hi.toInv0 he hc
  have hg : Good (st.newStore c) (mk st.nStore) := by
    refine ⟨(hmk _).1, fun a ha => ?_⟩
    rw [(hmk _).2.1] at ha
    cases ha
    refine ⟨(newStore_live ..).2 (.inr rfl), ?_⟩
    rw [newStore_cell]; exact (hmk _).2.2
  have h0 := write_inv0 hi1 (x := x) hv hg
  have h1 : Inv ((st.newStore c).setSlot x (mk st.nStore)) := by
    refine ⟨h0, fun g hg => ?_⟩
    rcases (newStore_live ..).1 hg with h | h
    · rcases hi.owned g h with h1 | ⟨y, h1, h2⟩
      · exact .inl h1
      · have e : y ≠ x := by rintro rfl; rw [hn] at h2; cases h2
        exact .inr ⟨y, (setSlot_live ..).2 h1, by rw [setSlot_sl, if_neg e]; exact h2⟩
    · exact .inr ⟨x, (setSlot_live ..).2 hx, by rw [setSlot_sl, if_pos rfl, h]; exact (hmk _).2.1⟩
  have hrun : initSlot x mk c st = .ok () ((st.newStore c).setSlot x (mk st.nStore)) := by
    rw [initSlot, bind_ok (run_deref hx), bind_ok (run_modify _ _), collect_id h1]
    rw [bind_ok (run_deref ((setSlot_live (st.newStore c) x _ x).2 hx))]; rfl
  refine ⟨hrun, ?_⟩
  rcases initSlot_spec hi hv he hc hmk with ⟨h, _⟩ | ⟨st', h2, h3⟩
  · rw [hrun] at h; cases h
  · rw [hrun] at h2; cases h2; exact h3

/-- Elements `D` were taken out of `s`. -/
structure Dropped (st st' : St) (s : Nat) (c : Cell) (D : List Nat) : Prop where
  inv : Inv st'
  fr : Fr st st'
  liveS : st'.liveS s
  cell : (st'.store s).cell = c
  obj : ∀ x, st'.live x → st.live x ∧ x ∉ D ∧ st'.obj x = st.obj x
  owner : ¬ Cyc st → ∀ t, st.live t → (st.sl t).sto = some s → st'.live t
  cells : ∀ y, y ≠ s → (st'.store y).cell = (st.store y).cell

theorem drop_spec {st : St} (hi : Inv st) {s : Nat} (hs : st.liveS s) {c : Cell} {D : List Nat}
    (hfit : ∀ sl, Fits sl (st.store s).cell → Fits sl c) (hok : CellOk c) (hD : ∀ x, x ∈ D → x ∈ st.el s)
    (hel : ∀ x, x ∈ c.elems ↔ x ∈ st.el s ∧ x ∉ D) (hnd : c.elems.Nodup) :
    (drop s c D st = .ub ∧ Cyc st) ∨ ∃ st', drop s c D st = .ok () st' ∧ Dropped st st' s c D := by
  have hsh := drop_shrinks hi.toInv0 hs hfit hok hD hel hnd
  have h0 := hsh.inv hi.toInv0
  generalize hst1 : (st.setCell s c).kill D = st1 at hsh h0
  obtain ⟨hc, hi'⟩ := collect_inv h0
  have hu : ∀ g, st1.liveS g → ¬ Owned st1 g → Edge st s g := by
    intro g hg ho
    rcases hi.owned g (hsh.store g hg).1 with h | ⟨y, h1, h2⟩
    · exact absurd (Or.inl (by rw [hsh.holds]; exact h)) ho
    · by_cases hy : y ∈ D
      · exact ⟨hs, y, hD y hy, h2⟩
      · have hl := (hsh.live y).2 ⟨h1, hy⟩
        exact absurd (Or.inr ⟨y, hl, by rw [St.sl, hsh.same hl]; exact h2⟩) ho
  rw [drop, bind_ok (run_modify _ _), hst1]
  by_cases hl : st1.collect.liveS s
  · refine .inr ⟨_, by rw [bind_ok (run_load hl)]; rfl, hi', ?_, hl, ?_, ?_, ?_, ?_⟩
    · exact {
        env := by rw [hc.env, hsh.env]
        holds := by rw [hc.holds, hsh.holds]
        nObj := by rw [hc.nObj, hsh.nObj]; exact Nat.le_refl _
        nStore := by rw [hc.nStore, hsh.nStore]; exact Nat.le_refl _
        old := fun x _ h => by
          obtain ⟨h1, h2⟩ := hc.obj x h
          exact ⟨((hsh.live x).1 h1).1, by rw [h2, hsh.same h1]⟩
        top := fun x h hh => by
          have hd : x ∉ D := fun hx => by rw [(hi.elems s x hs (hD x hx)).2.2] at hh; cases hh
          have hl := (hsh.live x).2 ⟨h, hd⟩
          exact hc.top x hl (by rw [hsh.same hl]; exact hh)
        new := fun x hx h => by
          have := hi.objBound x ((hsh.live x).1 (hc.obj x h).1).1
          omega
        kind := fun a _ h => by
          obtain ⟨h1, h2⟩ := hc.store a
          obtain ⟨h3, h4, _⟩ := hsh.store a (h2 h)
          exact ⟨h3, fun sl h => by rw [h1]; exact h4 sl h⟩
        stays := fun x _ h => by
          obtain ⟨h1, h2⟩ := hc.obj x h
          rw [h2, hsh.same h1]; exact .refl _ }
    · rw [(hc.store s).1, ← hst1]
      simp [St.kill, St.setCell]
    · intro x hx
      obtain ⟨h1, h2⟩ := hc.obj x hx
      obtain ⟨h3, h4⟩ := (hsh.live x).1 h1
      exact ⟨h3, h4, by rw [h2, hsh.same h1]⟩
    · intro hn t ht hts
      refine Decidable.byContradiction fun hd => hn ?_
      by_cases htD : t ∈ D
      · exact ⟨s, s, ⟨hs, t, hD t htD, hts⟩, .refl s⟩
      · have hl1 := (hsh.live t).2 ⟨ht, htD⟩
        obtain ⟨h, h1, g, h2, h3, h4⟩ := hc.deadObj h0 hl1 hd
        rw [hsh.same hl1] at h1
        obtain ⟨h5, h6⟩ := hi.home t h ht h1
        exact ⟨s, g, hu g h2 h3, (h4.mono fun _ _ h => hsh.edge hi.toInv0 h).tail ⟨h5, t, h6, hts⟩⟩
    · intro y hy
      rw [(hc.store y).1, ← hst1]
      simp [St.kill, St.setCell, hy]
  · refine .inl ⟨by rw [bind_ub (run_load_dead hl)], ?_⟩
    obtain ⟨g, h1, h2, h3⟩ := hc.dead s (by rw [← hst1]; simp only [St.liveS, St.kill, St.setCell, if_pos]; exact hs) hl
    exact ⟨s, g, hu g h1 h2, h3.mono fun _ _ h => hsh.edge hi.toInv0 h⟩

end Verif.Ref
