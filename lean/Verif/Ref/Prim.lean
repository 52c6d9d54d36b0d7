import Verif.Ref.Inv
/-!
# The changes of the memory keep the invariant
-/

namespace Verif.Ref
open Verif

/-! ## New objects -/

/-- New objects with the given contents, in a storage (`home`) or not. -/
structure Grows (st : St) (home : Option Nat) (slots : List Slot) (st' : St) : Prop where
  oldObj : ∀ x, x < st.nObj → st'.obj x = st.obj x
  newObj : ∀ x, st.nObj ≤ x → st'.live x → ∃ sl, slots[x - st.nObj]? = some sl ∧ st'.obj x = ⟨true, home, sl, none⟩
  isNew : ∀ i, i < slots.length → st'.live (st.nObj + i)
  nObj : st'.nObj = st.nObj + slots.length
  nStore : st'.nStore = st.nStore
  nRd : st'.nRd = st.nRd
  valid : st'.valid = st.valid
  holds : st'.holds = st.holds
  env : st'.env = st.env
  slotOk : ∀ sl, sl ∈ slots → sl.plain = true ∧ ∀ s, sl.sto = some s → st.liveS s ∧ Fits sl (st.store s).cell
  store : ∀ s, (st'.liveS s ↔ st.liveS s) ∧ (∀ sl, Fits sl (st.store s).cell → Fits sl (st'.store s).cell)
  cells : ∀ s, st.liveS s → CellOk (st'.store s).cell ∧ (st'.el s).Nodup ∧
    ∀ x, x ∈ st'.el s ↔ x ∈ st.el s ∨ home = some s ∧ st.nObj ≤ x ∧ x < st.nObj + slots.length
  homeOk : ∀ s, home = some s → st.liveS s

theorem Grows.live {st st' : St} {home : Option Nat} {slots : List Slot} (h : Grows st home slots st') (hi : Inv0 st) (x : Nat) :
    st'.live x ↔ st.live x ∨ st.nObj ≤ x ∧ x < st.nObj + slots.length := by
  by_cases hx : x < st.nObj
  · simp only [St.live, h.oldObj x hx]
    constructor
    · exact .inl
    · rintro (h1 | h1)
      · exact h1
      · omega
  · have hn : ¬ st.live x := fun hl => hx (hi.objBound x hl)
    constructor
    · intro hl
      obtain ⟨sl, h1, _⟩ := h.newObj x (by omega) hl
      obtain ⟨h2, _⟩ := List.getElem?_eq_some_iff.1 h1
      omega
    · rintro (hl | ⟨h1, h2⟩)
      · exact absurd hl hn
      · have := h.isNew (x - st.nObj) (by omega)
        rwa [show st.nObj + (x - st.nObj) = x by omega] at this

theorem Grows.old {st st' : St} {home : Option Nat} {slots : List Slot} (h : Grows st home slots st') (hi : Inv0 st) {x : Nat} (hx : st.live x) :
    st'.obj x = st.obj x := h.oldObj x (hi.objBound x hx)

theorem Grows.inv {st st' : St} {home : Option Nat} {slots : List Slot} (h : Grows st home slots st') (hi : Inv0 st) : Inv0 st' := by
  have new : ∀ x, st'.live x → st.live x ∨ ∃ sl, sl ∈ slots ∧ st'.obj x = ⟨true, home, sl, none⟩ ∧ st.nObj ≤ x ∧ x < st.nObj + slots.length := by
    intro x hx
    rcases (h.live hi x).1 hx with h1 | h1
    · exact .inl h1
    · obtain ⟨sl, h2, h3⟩ := h.newObj x h1.1 hx
      exact .inr ⟨sl, List.mem_of_getElem? h2, h3, h1⟩
  constructor
  · intro x hx
    rw [h.nObj]
    rcases (h.live hi x).1 hx with h1 | h1
    · have := hi.objBound x h1; omega
    · exact h1.2
  · intro s hs; rw [h.nStore]; exact hi.storeBound s ((h.store s).1.1 hs)
  · intro x k hx hk
    rw [h.nRd]
    rcases new x hx with h1 | ⟨sl, _, h1, _⟩
    · rw [h.old hi h1] at hk; exact hi.rdBound x k h1 hk
    · rw [h1] at hk; cases hk
  · intro x s hx hs
    rw [(h.store s).1]
    rcases new x hx with h1 | ⟨sl, hm, h1, _⟩
    · rw [St.sl, h.old hi h1] at hs; exact hi.stoLive x s h1 hs
    · rw [St.sl, h1] at hs; exact ((h.slotOk sl hm).2 s hs).1
  · intro s hs; rw [h.holds] at hs; rw [(h.store s).1]; exact hi.holdLive s hs
  · intro x s hx hs
    apply (h.store s).2
    rcases new x hx with h1 | ⟨sl, hm, h1, _⟩
    · rw [St.sl, h.old hi h1] at hs ⊢; exact hi.fits x s h1 hs
    · rw [St.sl, h1] at hs ⊢; exact ((h.slotOk sl hm).2 s hs).2
  · intro s hs; exact (h.cells s ((h.store s).1.1 hs)).1
  · intro s x hs hx
    have hs := (h.store s).1.1 hs
    rcases ((h.cells s hs).2.2 x).1 hx with h1 | ⟨h1, h2⟩
    · obtain ⟨h2, h3, h4⟩ := hi.elems s x hs h1
      rw [St.sl, St.live, h.old hi h2]
      exact ⟨h2, h3, h4⟩
    · have hl := (h.live hi x).2 (.inr h2)
      obtain ⟨sl, h3, h4⟩ := h.newObj x h2.1 hl
      refine ⟨hl, ?_⟩
      rw [St.sl, h4]
      exact ⟨(h.slotOk sl (List.mem_of_getElem? h3)).1, h1⟩
  · intro s hs; exact (h.cells s ((h.store s).1.1 hs)).2.1
  · intro x s hx hh
    rcases new x hx with h1 | ⟨sl, hm, h1, h2⟩
    · rw [h.old hi h1] at hh
      obtain ⟨h3, h4⟩ := hi.home x s h1 hh
      exact ⟨(h.store s).1.2 h3, ((h.cells s h3).2.2 x).2 (.inl h4)⟩
    · rw [h1] at hh
      have h3 := h.homeOk s hh
      exact ⟨(h.store s).1.2 h3, ((h.cells s h3).2.2 x).2 (.inr ⟨hh, h2⟩)⟩
  · intro x k hx hp hk
    rw [h.valid]
    rcases new x hx with h1 | ⟨sl, hm, h1, _⟩
    · rw [St.sl, h.old hi h1] at hp; rw [h.old hi h1] at hk; exact hi.plainRd x k h1 hp hk
    · rw [h1] at hk; cases hk
  · intro x y k hx hy hp hq hk hl
    rcases new x hx with h1 | ⟨sl, hm, h1, _⟩
    · rcases new y hy with h2 | ⟨sl, hm, h2, _⟩
      · rw [St.sl, h.old hi h1] at hp; rw [St.sl, h.old hi h2] at hq; rw [h.old hi h1] at hk; rw [h.old hi h2] at hl
        exact hi.plainRdInj x y k h1 h2 hp hq hk hl
      · rw [h2] at hl; cases hl
    · rw [h1] at hk; cases hk
  · intro r t hr ht
    rcases new r hr with h1 | ⟨sl, hm, h1, _⟩
    · rw [St.sl, h.old hi h1] at ht
      obtain ⟨k, hk, h2, h3⟩ := hi.refRd r t h1 ht
      refine ⟨k, by rw [h.old hi h1]; exact hk, ?_, ?_⟩
      · rw [h.valid, h2, h.live hi]
        constructor
        · exact .inl
        · rintro (h4 | h4)
          · exact h4
          · have := hi.tgtBound r t h1 ht; omega
      · rw [St.sl, St.live, h.oldObj t (hi.tgtBound r t h1 ht)]
        exact h3
    · rw [St.sl, h1] at ht
      have := (h.slotOk sl hm).1
      rw [plain_tgt this] at ht; cases ht
  · intro r t hr ht
    rw [h.nObj]
    rcases new r hr with h1 | ⟨sl, hm, h1, _⟩
    · rw [St.sl, h.old hi h1] at ht
      have := hi.tgtBound r t h1 ht; omega
    · rw [St.sl, h1] at ht
      rw [plain_tgt (h.slotOk sl hm).1] at ht; cases ht
  · intro v x hv
    rw [h.env] at hv
    obtain ⟨h1, h2⟩ := hi.env v x hv
    rw [St.live, h.old hi h1]
    exact ⟨h1, h2⟩
  · intro v w x; rw [h.env]; exact hi.envInj v w x

theorem Grows.owned {st st' : St} {home : Option Nat} {slots : List Slot} (h : Grows st home slots st') (hi : Inv0 st) {s : Nat}
    (ho : Owned st s) : Owned st' s := by
  rcases ho with h1 | ⟨x, h1, h2⟩
  · exact .inl (h.holds ▸ h1)
  · exact .inr ⟨x, by rw [St.live, h.old hi h1]; exact h1, by rw [St.sl, h.old hi h1]; exact h2⟩

theorem Grows.edge {st st' : St} {home : Option Nat} {slots : List Slot} (h : Grows st home slots st') (hi : Inv0 st) {a b : Nat}
    (he : Edge st' a b) : Edge st a b ∨ home = some a ∧ ∃ sl, sl ∈ slots ∧ sl.sto = some b := by
  obtain ⟨h1, e, h2, h3⟩ := he
  have h1 := (h.store a).1.1 h1
  rcases ((h.cells a h1).2.2 e).1 h2 with h4 | ⟨h4, h5⟩
  · refine .inl ⟨h1, e, h4, ?_⟩
    rwa [St.sl, h.old hi (hi.elems a e h1 h4).1] at h3
  · obtain ⟨sl, h6, h7⟩ := h.newObj e h5.1 ((h.live hi e).2 (.inr h5))
    rw [St.sl, h7] at h3
    exact .inr ⟨h4, sl, List.mem_of_getElem? h6, h3⟩

theorem new_old (st : St) (home : Option Nat) (slots : List Slot) {x : Nat} (h : x < st.nObj) : (st.new home slots).obj x = st.obj x := by
  simp [St.new, h]

theorem new_new (st : St) (home : Option Nat) (slots : List Slot) {x : Nat} (h : st.nObj ≤ x) {sl : Slot} (hs : slots[x - st.nObj]? = some sl) :
    (st.new home slots).obj x = ⟨true, home, sl, none⟩ := by
  simp only [St.new, if_neg (Nat.not_lt.2 h), hs]

theorem new_dead {st : St} (hi : Inv0 st) (home : Option Nat) (slots : List Slot) {x : Nat} (h : st.nObj ≤ x) (hl : (st.new home slots).live x) :
    ∃ sl, slots[x - st.nObj]? = some sl ∧ (st.new home slots).obj x = ⟨true, home, sl, none⟩ := by
  cases hs : slots[x - st.nObj]? with
  | some sl => exact ⟨sl, rfl, new_new st home slots h hs⟩
  | none =>
    simp only [St.live, St.new, if_neg (Nat.not_lt.2 h), hs] at hl
    have := hi.objBound x hl
    omega

theorem mem_fresh (st : St) (n x : Nat) : x ∈ st.fresh n ↔ st.nObj ≤ x ∧ x < st.nObj + n := by
  simp only [St.fresh, List.mem_map, List.mem_range]
  constructor
  · rintro ⟨i, h, rfl⟩; omega
  · intro h; exact ⟨x - st.nObj, by omega, by omega⟩

theorem nodup_fresh (st : St) (n : Nat) : (st.fresh n).Nodup := by
  rw [St.fresh, List.nodup_iff_pairwise_ne, List.pairwise_map]
  exact (List.nodup_iff_pairwise_ne.1 List.nodup_range).imp (by intro a b h; omega)

/-- A new object on its own: a variable or a local variable. -/
theorem temp_grows {st : St} (hi : Inv0 st) : Grows st none [.null] (st.new none [.null]) where
  oldObj x h := new_old st none _ h
  newObj x h hl := new_dead hi none _ h hl
  isNew i h := by
    have : i = 0 := by simpa using h
    subst this
    rw [St.live, new_new st none [.null] (x := st.nObj + 0) (sl := .null) (by omega) (by simp)]
  nObj := rfl
  nStore := rfl
  nRd := rfl
  valid := rfl
  holds := rfl
  env := rfl
  slotOk sl h := by
    rw [List.mem_singleton] at h
    subst h
    exact ⟨rfl, fun s h => by cases h⟩
  store s := ⟨Iff.rfl, fun _ h => h⟩
  cells s hs := ⟨hi.cellOk s hs, hi.nodup s hs, fun x => by simp [St.new]⟩
  homeOk s h := by cases h

/-- New objects in a storage whose cell gets them as elements. -/
theorem new_grows {st : St} (hi : Inv0 st) {s : Nat} (hs : st.liveS s) {slots : List Slot}
    (hslots : ∀ sl, sl ∈ slots → sl.plain = true ∧ ∀ s, sl.sto = some s → st.liveS s ∧ Fits sl (st.store s).cell) {c : Cell}
    (hfit : ∀ sl, Fits sl (st.store s).cell → Fits sl c) (hok : CellOk c) (hnd : c.elems.Nodup)
    (hel : ∀ x, x ∈ c.elems ↔ x ∈ st.el s ∨ st.nObj ≤ x ∧ x < st.nObj + slots.length) :
    Grows st (some s) slots ((st.new (some s) slots).setCell s c) where
  oldObj x h := new_old st _ _ h
  newObj x h hl := new_dead hi _ _ h hl
  isNew i h := by
    show (st.new (some s) slots).live _
    rw [St.live, new_new st (some s) slots (x := st.nObj + i) (sl := slots[i]) (by omega) (by
      rw [Nat.add_sub_cancel_left]; exact List.getElem?_eq_getElem h)]
  nObj := rfl
  nStore := rfl
  nRd := rfl
  valid := rfl
  holds := rfl
  env := rfl
  slotOk := hslots
  store y := by
    by_cases e : y = s
    · subst e; simp only [St.setCell, St.new, if_pos, St.liveS]; exact ⟨trivial, hfit⟩
    · simp only [St.setCell, St.new, if_neg e, St.liveS]; exact ⟨trivial, fun _ h => h⟩
  cells y hy := by
    by_cases e : y = s
    · subst e
      simp only [St.setCell, St.new, if_pos, St.el, true_and]
      exact ⟨hok, hnd, hel⟩
    · simp only [St.setCell, St.new, if_neg e, St.el]
      exact ⟨hi.cellOk y hy, hi.nodup y hy, fun x => by simp [Ne.symm e]⟩
  homeOk y h := by cases h; exact hs

/-! ## Contents -/

/-- New contents of an object that stays what it is, a value or a reference to the same object. -/
theorem setSlot_inv0 {st : St} (hi : Inv0 st) {x : Nat} {new : Slot} (hx : st.live x) (hp : new.plain = (st.sl x).plain)
    (ht : new.tgt = (st.sl x).tgt) (hs : ∀ s, new.sto = some s → st.liveS s ∧ Fits new (st.store s).cell) : Inv0 (st.setSlot x new) := by
  have hsl : ∀ y, (st.setSlot x new).sl y = if y = x then new else st.sl y := by
    intro y; simp only [St.sl, St.setSlot, St.setObj]; split <;> rfl
  have hal : ∀ y, (st.setSlot x new).live y ↔ st.live y := by
    intro y; simp only [St.live, St.setSlot, St.setObj]; split <;> simp_all
  have hhome : ∀ y, ((st.setSlot x new).obj y).home = (st.obj y).home := by
    intro y; simp only [St.setSlot, St.setObj]; split <;> simp_all
  have hrd : ∀ y, ((st.setSlot x new).obj y).rd = (st.obj y).rd := by
    intro y; simp only [St.setSlot, St.setObj]; split <;> simp_all
  have hpl : ∀ y, ((st.setSlot x new).sl y).plain = (st.sl y).plain := by
    intro y; rw [hsl]; split
    · rename_i e; rw [e, hp]
    · rfl
  have htg : ∀ y, ((st.setSlot x new).sl y).tgt = (st.sl y).tgt := by
    intro y; rw [hsl]; split
    · rename_i e; rw [e, ht]
    · rfl
  constructor
  · intro y hy; exact hi.objBound y ((hal y).1 hy)
  · exact hi.storeBound
  · intro y k hy; rw [hrd]; exact hi.rdBound y k ((hal y).1 hy)
  · intro y s hy; rw [hsl]; split
    · exact fun h => (hs s h).1
    · exact hi.stoLive y s ((hal y).1 hy)
  · exact hi.holdLive
  · intro y s hy; rw [hsl]; split
    · exact fun h => (hs s h).2
    · exact hi.fits y s ((hal y).1 hy)
  · exact hi.cellOk
  · intro s y h1 h2; rw [hal, hpl, hhome]; exact hi.elems s y h1 h2
  · exact hi.nodup
  · intro y s hy; rw [hhome]; exact hi.home y s ((hal y).1 hy)
  · intro y k hy; rw [hpl, hrd]; exact hi.plainRd y k ((hal y).1 hy)
  · intro y z k hy hz; rw [hpl, hpl, hrd, hrd]; exact hi.plainRdInj y z k ((hal y).1 hy) ((hal z).1 hz)
  · intro r t hr; rw [htg, hrd, hal, hpl, hrd]; exact hi.refRd r t ((hal r).1 hr)
  · intro r t hr; rw [htg]; exact hi.tgtBound r t ((hal r).1 hr)
  · intro v y hv; rw [hal, hhome]; exact hi.env v y hv
  · exact hi.envInj

theorem setSlot_sl (st : St) (x : Nat) (new : Slot) (y : Nat) : (st.setSlot x new).sl y = if y = x then new else st.sl y := by
  simp only [St.sl, St.setSlot, St.setObj]; split <;> rfl

theorem setSlot_live (st : St) (x : Nat) (new : Slot) (y : Nat) : (st.setSlot x new).live y ↔ st.live y := by
  simp only [St.live, St.setSlot, St.setObj]; split <;> simp_all

theorem setSlot_home (st : St) (x : Nat) (new : Slot) (y : Nat) : ((st.setSlot x new).obj y).home = (st.obj y).home := by
  simp only [St.setSlot, St.setObj]; split <;> simp_all

/-- New storage. -/
theorem newStore_inv0 {st : St} (hi : Inv0 st) {c : Cell} (he : c.elems = []) (hc : CellOk c) : Inv0 (st.newStore c) := by
  have hnew : ¬ st.liveS st.nStore := fun h => Nat.lt_irrefl _ (hi.storeBound _ h)
  have old : ∀ s, st.liveS s → (st.newStore c).store s = st.store s := by
    intro s hs
    have : s ≠ st.nStore := by rintro rfl; exact hnew hs
    simp [St.newStore, this]
  have cases' : ∀ s, (st.newStore c).liveS s → s = st.nStore ∧ ((st.newStore c).store s).cell = c ∨ st.liveS s := by
    intro s hs
    by_cases e : s = st.nStore
    · exact .inl ⟨e, by simp [St.newStore, e]⟩
    · exact .inr (by simpa [St.newStore, St.liveS, e] using hs)
  constructor
  · exact hi.objBound
  · intro s hs
    show s < st.nStore + 1
    rcases cases' s hs with h | h
    · omega
    · have := hi.storeBound s h; omega
  · exact hi.rdBound
  · intro x s hx h; have := hi.stoLive x s hx h; rw [St.liveS, old s this]; exact this
  · intro s h; have := hi.holdLive s h; rw [St.liveS, old s this]; exact this
  · intro x s hx h; rw [old s (hi.stoLive x s hx h)]; exact hi.fits x s hx h
  · intro s hs
    rcases cases' s hs with ⟨h, h2⟩ | h
    · rw [h2]; exact hc
    · rw [old s h]; exact hi.cellOk s h
  · intro s x hs hx
    rcases cases' s hs with ⟨h, h2⟩ | h
    · rw [St.el, h2, he] at hx; cases hx
    · rw [St.el, old s h] at hx; exact hi.elems s x h hx
  · intro s hs
    rcases cases' s hs with ⟨h, h2⟩ | h
    · rw [St.el, h2, he]; exact List.nodup_nil
    · rw [St.el, old s h]; exact hi.nodup s h
  · intro x s hx hh
    obtain ⟨h1, h2⟩ := hi.home x s hx hh
    rw [St.liveS, St.el, old s h1]
    exact ⟨h1, h2⟩
  · exact hi.plainRd
  · exact hi.plainRdInj
  · exact hi.refRd
  · exact hi.tgtBound
  · exact hi.env
  · exact hi.envInj

/-- A flag for an object that has none yet. -/
theorem newRd_inv {st st' : St} (hi : Inv st) {t k : Nat} (ht : st.live t) (hp : (st.sl t).plain = true) (hn : (st.obj t).rd = none)
    (h : newRd t st = .ok k st') : Inv st' ∧ (st'.obj t).rd = some k ∧ st'.valid k = true ∧ (∀ x, (st'.obj x).alive = (st.obj x).alive ∧
      (st'.obj x).home = (st.obj x).home ∧ (st'.obj x).slot = (st.obj x).slot) ∧ (∀ x, x ≠ t → st'.obj x = st.obj x) ∧ st'.store = st.store ∧
      st'.nObj = st.nObj ∧ st'.nStore = st.nStore ∧ st'.holds = st.holds ∧ st'.env = st.env := by
  simp only [newRd, Res.ok.injEq] at h
  obtain ⟨rfl, rfl⟩ := h
  have hal : ∀ (x : Nat), ((if x = t then { st.obj t with rd := some st.nRd } else st.obj x).alive = true) ↔ st.live x := by
    intro x; split
    · rename_i e; rw [e]
    · rfl
  have hsl : ∀ (x : Nat), (if x = t then { st.obj t with rd := some st.nRd } else st.obj x).slot = st.sl x := by
    intro x; split <;> simp_all
  have hho : ∀ (x : Nat), (if x = t then { st.obj t with rd := some st.nRd } else st.obj x).home = (st.obj x).home := by
    intro x; split <;> simp_all
  have hrd : ∀ (x : Nat), (if x = t then { st.obj t with rd := some st.nRd } else st.obj x).rd = if x = t then some st.nRd else (st.obj x).rd := by
    intro x; split <;> rfl
  have inv0 : Inv0 { st.setObj t { st.obj t with rd := some st.nRd } with
      valid := fun k => if k = st.nRd then true else st.valid k, nRd := st.nRd + 1 } := by
    constructor <;> simp only [St.setObj, St.live, St.liveS, St.sl, St.el, hal, hsl, hho, hrd]
    · exact hi.objBound
    · exact hi.storeBound
    · intro x k hx; split
      · intro h; cases h; omega
      · intro h; have := hi.rdBound x k hx h; omega
    · exact hi.stoLive
    · exact hi.holdLive
    · exact hi.fits
    · exact hi.cellOk
    · exact hi.elems
    · exact hi.nodup
    · exact hi.home
    · intro x k hx hpx; split
      · intro h; cases h; simp
      · intro h; have h2 := hi.plainRd x k hx hpx h; split
        · rfl
        · exact h2
    · intro x y k hx hy hpx hpy
      split
      · rename_i e1
        split
        · rename_i e2; intro _ _; rw [e1, e2]
        · intro h1 h2
          cases h1
          have := hi.rdBound y _ hy h2; omega
      · split
        · intro h1 h2
          cases h2
          have := hi.rdBound x _ hx h1; omega
        · exact hi.plainRdInj x y k hx hy hpx hpy
    · intro r u hr hu
      obtain ⟨k, h1, h2, h3⟩ := hi.refRd r u hr hu
      have hk := hi.rdBound r k hr h1
      have hrt : r ≠ t := by rintro rfl; rw [tgt_plain hu] at hp; cases hp
      rw [if_neg hrt]
      refine ⟨k, h1, by rw [if_neg (by omega)]; exact h2, fun hu => ?_⟩
      have hut : u ≠ t := by rintro rfl; rw [(h3 hu).2] at hn; cases hn
      rw [if_neg hut]; exact h3 hu
    · exact hi.tgtBound
    · exact hi.env
    · exact hi.envInj
  refine ⟨⟨inv0, ?_⟩, by simp [St.setObj], by simp, fun x => ?_, fun x hx => by simp [St.setObj, hx], rfl, rfl, rfl, rfl, rfl⟩
  · intro s hs
    rcases hi.owned s hs with h | ⟨x, h1, h2⟩
    · exact .inl h
    · refine .inr ⟨x, ?_, ?_⟩
      · simp only [St.setObj, St.live, hal]; exact h1
      · simp only [St.setObj, St.sl, hsl]; exact h2
  · simp only [St.setObj]
    split <;> simp_all

/-- A variable is made a reference to `t`, whose flag is `k`. -/
theorem setRef_inv0 {st : St} (hi : Inv0 st) {r t k : Nat} {s : Slot} (hr : st.live r) (hh : (st.obj r).home = none)
    (hlike : (st.sl r).plain = false ∨ (st.obj r).rd = none) (ht : st.live t) (hp : (st.sl t).plain = true) (hrt : t ≠ r)
    (hk : (st.obj t).rd = some k) (hst : s.tgt = some t) (hsto : ∀ a, s.sto = some a → st.liveS a) :
    Inv0 (st.setObj r { st.obj r with slot := s, rd := some k }) := by
  have hsp := tgt_plain hst
  have hv : st.valid k = true := hi.plainRd t k ht hp hk
  have hfit : ∀ c, (s.sto ≠ none) → Fits s c := by
    intro c h; cases s <;> simp_all [Slot.plain, Slot.sto, Fits]
  have hal : ∀ x : Nat, ((if x = r then { st.obj r with slot := s, rd := some k } else st.obj x).alive = true) ↔ st.live x := by
    intro x; split
    · rename_i e; rw [e]
    · rfl
  have hsl : ∀ x : Nat, (if x = r then { st.obj r with slot := s, rd := some k } else st.obj x).slot = if x = r then s else st.sl x := by
    intro x; split <;> rfl
  have hho : ∀ x : Nat, (if x = r then { st.obj r with slot := s, rd := some k } else st.obj x).home = (st.obj x).home := by
    intro x; split <;> simp_all
  have hrd : ∀ x : Nat, (if x = r then { st.obj r with slot := s, rd := some k } else st.obj x).rd = if x = r then some k else (st.obj x).rd := by
    intro x; split <;> rfl
  constructor <;> simp only [St.setObj, St.live, St.liveS, St.sl, St.el, hal, hsl, hho, hrd]
  · exact hi.objBound
  · exact hi.storeBound
  · intro x j hx; split
    · intro h; cases h; exact hi.rdBound t _ ht hk
    · exact hi.rdBound x j hx
  · intro x a hx; split
    · exact hsto a
    · exact hi.stoLive x a hx
  · exact hi.holdLive
  · intro x a hx; split
    · intro h; exact hfit _ (by rw [h]; simp)
    · exact hi.fits x a hx
  · exact hi.cellOk
  · intro a x ha hx
    obtain ⟨h1, h2, h3⟩ := hi.elems a x ha hx
    have : x ≠ r := by rintro rfl; rw [hh] at h3; cases h3
    rw [if_neg this]
    exact ⟨h1, h2, h3⟩
  · exact hi.nodup
  · exact hi.home
  · intro x j hx; split
    · intro h; rw [hsp] at h; cases h
    · exact hi.plainRd x j hx
  · intro x y j hx hy; split
    · intro h; rw [hsp] at h; cases h
    · split
      · intro _ h; rw [hsp] at h; cases h
      · exact hi.plainRdInj x y j hx hy
  · intro q u hq; split
    · intro hu
      rw [hst] at hu
      cases hu
      refine ⟨k, rfl, by simp [hv, ht], fun _ => ?_⟩
      rw [if_neg hrt, if_neg hrt]; exact ⟨hp, hk⟩
    · intro hu
      obtain ⟨j, h1, h2, h3⟩ := hi.refRd q u hq hu
      refine ⟨j, h1, h2, fun hlu => ?_⟩
      have : u ≠ r := by
        rintro rfl
        rcases hlike with h | h
        · rw [(h3 hlu).1] at h; cases h
        · rw [(h3 hlu).2] at h; cases h
      rw [if_neg this, if_neg this]; exact h3 hlu
  · intro q u hq; split
    · intro hu; rw [hst] at hu; cases hu; exact hi.objBound t ht
    · exact hi.tgtBound q u hq
  · exact hi.env
  · exact hi.envInj

/-- A local variable is destroyed. -/
theorem kill_shrinks {st : St} (hi : Inv0 st) {x : Nat} (hx : st.live x) (hh : (st.obj x).home = none) (he : ∀ v, st.env v ≠ some x) :
    Shrinks st [x] (st.kill [x]) where
  obj _ := rfl
  valid _ := rfl
  liveD y hy := by rw [List.mem_singleton] at hy; exact hy ▸ hx
  nObj := rfl
  nStore := rfl
  nRd := rfl
  holds := rfl
  env := rfl
  envD v y hv hy := by rw [List.mem_singleton] at hy; exact he v (hy ▸ hv)
  store s hs := by
    refine ⟨hs, fun _ h => h, hi.cellOk s hs, fun y => ⟨fun h => ⟨h, fun h2 => ?_⟩, fun h => h.1⟩, hi.nodup s hs⟩
    rw [List.mem_singleton] at h2
    have := (hi.elems s y hs h).2.2
    rw [h2, hh] at this
    cases this
  own y s hy _ h := hi.stoLive y s hy h
  hold s h := hi.holdLive s h
  homes y s hy _ h := (hi.home y s hy h).1

/-- Elements are taken out of a container. -/
theorem drop_shrinks {st : St} (hi : Inv0 st) {s : Nat} (hs : st.liveS s) {c : Cell} {D : List Nat}
    (hfit : ∀ sl, Fits sl (st.store s).cell → Fits sl c) (hok : CellOk c) (hD : ∀ x, x ∈ D → x ∈ st.el s)
    (hel : ∀ x, x ∈ c.elems ↔ x ∈ st.el s ∧ x ∉ D) (hnd : c.elems.Nodup) : Shrinks st D ((st.setCell s c).kill D) where
  obj _ := rfl
  valid _ := rfl
  liveD x hx := (hi.elems s x hs (hD x hx)).1
  nObj := rfl
  nStore := rfl
  nRd := rfl
  holds := rfl
  env := rfl
  envD v x hv hx := by
    have := (hi.elems s x hs (hD x hx)).2.2
    rw [(hi.env v x hv).2] at this
    cases this
  store y hy := by
    by_cases e : y = s
    · subst e
      simp only [St.setCell, St.kill, if_pos, St.el]
      exact ⟨hs, hfit, hok, hel, hnd⟩
    · have e2 : ((st.setCell s c).kill D).store y = st.store y := by simp [St.setCell, St.kill, e]
      simp only [St.liveS, St.el, e2] at hy ⊢
      refine ⟨hy, fun _ h => h, hi.cellOk y hy, fun x => ⟨fun h => ⟨h, fun h2 => e ?_⟩, fun h => h.1⟩, hi.nodup y hy⟩
      have h3 := (hi.elems y x hy h).2.2
      rw [(hi.elems s x hs (hD x h2)).2.2] at h3
      cases h3; rfl
  own x y hx _ h := by
    have := hi.stoLive x y hx h
    by_cases e : y = s <;> simp_all [St.setCell, St.kill, St.liveS]
  hold y h := by
    have := hi.holdLive y h
    by_cases e : y = s <;> simp_all [St.setCell, St.kill, St.liveS]
  homes x y hx _ h := by
    have := (hi.home x y hx h).1
    by_cases e : y = s <;> simp_all [St.setCell, St.kill, St.liveS]

/-- Local `shared_ptr`s. -/
theorem holds_inv0 {st : St} (hi : Inv0 st) {hs : List Nat} (h : ∀ s, s ∈ hs → st.liveS s) : Inv0 { st with holds := hs } where
  objBound := hi.objBound
  storeBound := hi.storeBound
  rdBound := hi.rdBound
  stoLive := hi.stoLive
  holdLive := h
  fits := hi.fits
  cellOk := hi.cellOk
  elems := hi.elems
  nodup := hi.nodup
  home := hi.home
  plainRd := hi.plainRd
  plainRdInj := hi.plainRdInj
  refRd := hi.refRd
  tgtBound := hi.tgtBound
  env := hi.env
  envInj := hi.envInj

/-! ## Vectors that grow -/

/-- What `extend` does. -/
structure Extends (st : St) (s : Nat) (es : List Nat) (slots : List Slot) (st' : St) : Prop where
  inv : Inv st'
  keep : ∀ x, st.live x → x ∉ es → st'.obj x = st.obj x
  old : ∀ x, x < st.nObj → st'.live x → st.live x ∧ st'.obj x = st.obj x
  new : ∀ x, st.nObj ≤ x → st'.live x → (st'.obj x).home = some s
  cell : ∃ cap es', (st'.store s).cell = .list cap es' ∧ es'.length = es.length + slots.length ∧
    ∀ i x, es.length ≤ i → es'[i]? = some x → slots[i - es.length]? = some (st'.sl x)
  store : ∀ y, y ≠ s → st'.store y = st.store y
  liveS : st'.liveS s
  nObj : st.nObj ≤ st'.nObj
  nStore : st'.nStore = st.nStore
  holds : st'.holds = st.holds
  env : st'.env = st.env
  edge : ∀ a b, Edge st' a b → Edge st a b ∨ a = s ∧ ∃ sl, sl ∈ slots ∧ sl.sto = some b

theorem fresh_get (st : St) (n i x : Nat) (h : (st.fresh n)[i]? = some x) : x = st.nObj + i ∧ i < n := by
  simp only [St.fresh, List.getElem?_map, Option.map_eq_some_iff] at h
  obtain ⟨j, h1, rfl⟩ := h
  obtain ⟨h2, h3⟩ := List.getElem?_eq_some_iff.1 h1
  simp at h2 h3
  omega

theorem extend_extends {st : St} (hi : Inv st) (grow : Nat → Nat → Nat) {s cap : Nat} {es : List Nat} (hs : st.liveS s)
    (hc : (st.store s).cell = .list cap es) {slots : List Slot}
    (hslots : ∀ sl, sl ∈ slots → sl.plain = true ∧ ∀ s, sl.sto = some s → st.liveS s ∧ Fits sl (st.store s).cell) :
    Extends st s es slots (st.extend grow s cap es slots) := by
  have hel : st.el s = es := by rw [St.el, hc]; rfl
  have hnd : es.Nodup := hel ▸ hi.nodup s hs
  have hbound : ∀ x, x ∈ es → x < st.nObj := fun x hx => hi.objBound x (hi.elems s x hs (by rw [hel]; exact hx)).1
  have hfit : ∀ c' es', ∀ sl, Fits sl (st.store s).cell → Fits sl (Cell.list c' es') := by
    intro c' es' sl h; rw [hc] at h; cases sl <;> simp_all [Fits]
  have hnd2 : ∀ n, (es ++ st.fresh n).Nodup := by
    intro n
    rw [List.nodup_append]
    refine ⟨hnd, nodup_fresh st n, fun a ha b hb => ?_⟩
    have := hbound a ha
    have := (mem_fresh st n b).1 hb
    omega
  have hmem : ∀ n x, x ∈ es ++ st.fresh n ↔ x ∈ st.el s ∨ st.nObj ≤ x ∧ x < st.nObj + n := by
    intro n x; rw [List.mem_append, mem_fresh, hel]
  by_cases hle : es.length + slots.length ≤ cap
  · have e : st.extend grow s cap es slots = (st.new (some s) slots).setCell s (.list cap (es ++ st.fresh slots.length)) := by
      rw [St.extend, if_pos hle]
    rw [e]
    have hg := new_grows hi.toInv0 hs hslots (c := .list cap (es ++ st.fresh slots.length)) (hfit _ _) trivial (hnd2 _) (hmem _)
    exact {
      inv := ⟨hg.inv hi.toInv0, fun y hy => hg.owned hi.toInv0 (hi.owned y ((hg.store y).1.1 hy))⟩
      keep := fun x hx _ => hg.old hi.toInv0 hx
      old := fun x hx hl => by
        have := hg.oldObj x hx
        exact ⟨by rw [St.live, ← this]; exact hl, this⟩
      new := fun x hx hl => by
        obtain ⟨sl, _, h⟩ := hg.newObj x hx hl
        rw [h]
      cell := by
        refine ⟨cap, es ++ st.fresh slots.length, by simp [St.setCell], by simp [St.fresh], fun i x h1 h2 => ?_⟩
        rw [List.getElem?_append_right h1] at h2
        obtain ⟨rfl, h3⟩ := fresh_get st _ _ _ h2
        obtain ⟨sl, h4, h5⟩ := hg.newObj (st.nObj + (i - es.length)) (by omega) (hg.isNew _ h3)
        rw [St.sl, h5, ← h4, Nat.add_sub_cancel_left]
      store := fun y hy => by simp [St.setCell, St.new, hy]
      liveS := (hg.store s).1.2 hs
      nObj := by rw [hg.nObj]; omega
      nStore := rfl
      holds := rfl
      env := rfl
      edge := fun a b h => by
        rcases hg.edge hi.toInv0 h with h | ⟨h1, h2⟩
        · exact .inl h
        · cases h1; exact .inr ⟨rfl, h2⟩ }
  · generalize hall : es.map (fun x => (st.obj x).slot) ++ slots = all
    generalize hcap : max all.length (grow es.length all.length) = cap'
    have e : st.extend grow s cap es slots =
        ((((st.new (some s) all).setCell s (.list cap (es ++ st.fresh all.length))).setCell s (.list cap' (st.fresh all.length))).kill es) := by
      rw [St.extend, if_neg hle]
      simp only [hall, hcap, St.setCell, St.kill, St.new]
      congr 1
      funext y
      split <;> simp_all
    rw [e]
    have hallOk : ∀ sl, sl ∈ all → sl.plain = true ∧ ∀ s, sl.sto = some s → st.liveS s ∧ Fits sl (st.store s).cell := by
      intro sl hsl
      rw [← hall, List.mem_append, List.mem_map] at hsl
      rcases hsl with ⟨x, hx, rfl⟩ | h
      · obtain ⟨h1, h2, _⟩ := hi.elems s x hs (by rw [hel]; exact hx)
        exact ⟨h2, fun a ha => ⟨hi.stoLive x a h1 ha, hi.fits x a h1 ha⟩⟩
      · exact hslots sl h
    have hg := new_grows hi.toInv0 hs hallOk (c := .list cap (es ++ st.fresh all.length)) (hfit _ _) trivial (hnd2 _) (hmem _)
    generalize hst1 : (st.new (some s) all).setCell s (.list cap (es ++ st.fresh all.length)) = st1 at hg ⊢
    have hi1 := hg.inv hi.toInv0
    have hs1 : st1.liveS s := (hg.store s).1.2 hs
    have hc1 : (st1.store s).cell = .list cap (es ++ st.fresh all.length) := by rw [← hst1]; simp [St.setCell]
    have hel1 : st1.el s = es ++ st.fresh all.length := by rw [St.el, hc1]; rfl
    have hsh : Shrinks st1 es ((st1.setCell s (.list cap' (st.fresh all.length))).kill es) := by
      refine drop_shrinks hi1 hs1 ?_ trivial ?_ ?_ (nodup_fresh _ _)
      · intro sl h; rw [hc1] at h; cases sl <;> simp_all [Fits]
      · intro x hx; rw [hel1]; exact List.mem_append_left _ hx
      · intro x
        rw [hel1]
        show x ∈ st.fresh all.length ↔ _
        rw [List.mem_append]
        constructor
        · intro h
          refine ⟨.inr h, fun h2 => ?_⟩
          have := hbound x h2
          have := (mem_fresh st _ x).1 h
          omega
        · rintro ⟨h | h, h2⟩
          · exact absurd h h2
          · exact h
    generalize hst2 : (st1.setCell s (.list cap' (st.fresh all.length))).kill es = st2 at hsh ⊢
    have hlen : all.length = es.length + slots.length := by rw [← hall]; simp
    have newLive : ∀ i, i < all.length → st2.live (st.nObj + i) ∧ ∃ sl, all[i]? = some sl ∧ st2.obj (st.nObj + i) = ⟨true, some s, sl, none⟩ := by
      intro i hi2
      have h1 := hg.isNew i hi2
      have h2 : st2.live (st.nObj + i) := (hsh.live _).2 ⟨h1, fun h => by have := hbound _ h; omega⟩
      obtain ⟨sl, h3, h4⟩ := hg.newObj (st.nObj + i) (by omega) h1
      rw [Nat.add_sub_cancel_left] at h3
      exact ⟨h2, sl, h3, by rw [hsh.same h2, h4]⟩
    exact {
      inv := by
        refine ⟨hsh.inv hi1, fun y hy => ?_⟩
        have hy0 := (hg.store y).1.1 (hsh.store y hy).1
        rcases hi.owned y hy0 with h | ⟨x, h1, h2⟩
        · exact .inl (by rw [hsh.holds, hg.holds]; exact h)
        · by_cases hx : x ∈ es
          · obtain ⟨i, hil, hix⟩ := List.mem_iff_getElem.1 hx
            obtain ⟨h3, sl, h4, h5⟩ := newLive i (by omega)
            refine .inr ⟨st.nObj + i, h3, ?_⟩
            rw [St.sl, h5]
            have : all[i]? = some (st.sl x) := by
              rw [← hall, List.getElem?_append_left (by simpa using hil), List.getElem?_map, List.getElem?_eq_getElem hil, hix]
              rfl
            rw [this] at h4
            cases h4
            exact h2
          · have h3 : st1.live x := by rw [St.live, hg.old hi.toInv0 h1]; exact h1
            have h4 := (hsh.live x).2 ⟨h3, hx⟩
            exact .inr ⟨x, h4, by rw [St.sl, hsh.same h4, hg.old hi.toInv0 h1]; exact h2⟩
      keep := fun x hx hn => by
        rw [hsh.obj, if_neg hn, hg.old hi.toInv0 hx]
      old := fun x hx hl => by
        have h1 := hsh.same hl
        have h2 := hg.oldObj x hx
        exact ⟨by rw [St.live, ← h2, ← h1]; exact hl, by rw [h1, h2]⟩
      new := fun x hx hl => by
        rw [hsh.same hl]
        obtain ⟨sl, _, h⟩ := hg.newObj x hx ((hsh.live x).1 hl).1
        rw [h]
      cell := by
        refine ⟨cap', st.fresh all.length, by rw [← hst2]; simp [St.setCell, St.kill], by rw [← hlen]; simp [St.fresh], fun i x h1 h2 => ?_⟩
        obtain ⟨rfl, h3⟩ := fresh_get st _ _ _ h2
        obtain ⟨h3, sl, h4, h5⟩ := newLive i h3
        rw [St.sl, h5]
        rw [← hall, List.getElem?_append_right (by simpa using h1)] at h4
        simpa using h4
      store := fun y hy => by rw [← hst2, ← hst1]; simp [St.setCell, St.new, St.kill, hy]
      liveS := by rw [← hst2]; simp only [St.setCell, St.kill, St.liveS, if_pos]; exact hs1
      nObj := by rw [hsh.nObj, hg.nObj]; omega
      nStore := by rw [hsh.nStore, hg.nStore]
      holds := by rw [hsh.holds, hg.holds]
      env := by rw [hsh.env, hg.env]
      edge := fun a b h => by
        rcases hg.edge hi.toInv0 (hsh.edge hi1 h) with h | ⟨h1, sl, h2, h3⟩
        · exact .inl h
        · cases h1
          rw [← hall, List.mem_append, List.mem_map] at h2
          rcases h2 with ⟨x, hx, rfl⟩ | h2
          · exact .inl ⟨hs, x, by rw [hel]; exact hx, h3⟩
          · exact .inr ⟨rfl, sl, h2, h3⟩ }

theorem new_fresh (st : St) (home : Option Nat) (slots : List Slot) : (st.fresh slots.length).map (st.new home slots).sl = slots := by
  apply List.ext_getElem
  · simp [St.fresh]
  · intro i h1 h2
    have : ¬ st.nObj + i < st.nObj := by omega
    simp [St.fresh, St.new, St.sl, List.getElem?_eq_getElem h2, this]

/-- The elements of a vector that grows. -/
theorem extend_elems {st : St} (grow : Nat → Nat → Nat) {s cap : Nat} {es : List Nat} {slots : List Slot} (hb : ∀ x, x ∈ es → x < st.nObj) :
    ∃ cap' es', ((st.extend grow s cap es slots).store s).cell = .list cap' es' ∧
      es'.map (st.extend grow s cap es slots).sl = es.map st.sl ++ slots ∧
      (∀ x, x < st.nObj → (x ∉ es ∨ es.length + slots.length ≤ cap) → (st.extend grow s cap es slots).obj x = st.obj x) ∧
      (cap < es.length + slots.length → ∀ x, x ∈ es → ¬ (st.extend grow s cap es slots).live x) := by
  have hnew : ∀ (h : Option Nat) (l : List Slot) (x : Nat), x < st.nObj → (st.new h l).obj x = st.obj x := fun h l x hx => new_old st h l hx
  by_cases hle : es.length + slots.length ≤ cap
  · rw [St.extend, if_pos hle]
    refine ⟨cap, es ++ st.fresh slots.length, by simp [St.setCell], ?_, fun x hx _ => hnew _ _ x hx, fun h => by omega⟩
    rw [List.map_append]
    congr 1
    · exact List.map_congr_left fun x hx => by
        show (st.new (some s) slots).sl x = _
        rw [St.sl, hnew _ _ x (hb x hx)]
    · exact new_fresh st (some s) slots
  · rw [St.extend, if_neg hle]
    generalize hall : es.map (fun x => (st.obj x).slot) ++ slots = all
    simp only [hall]
    generalize max all.length (grow es.length all.length) = cap'
    refine ⟨cap', st.fresh all.length, by simp [St.setCell], ?_, fun x hx h => ?_, fun _ x hx => ?_⟩
    · have : (st.fresh all.length).map (((st.new (some s) all).kill es).setCell s (.list cap' (st.fresh all.length))).sl =
          (st.fresh all.length).map (st.new (some s) all).sl := List.map_congr_left fun x hx => by
        show (((st.new (some s) all).kill es).obj x).slot = _
        rw [St.kill]
        have : x ∉ es := fun h => by
          have := hb x h
          have := (mem_fresh st _ x).1 hx
          omega
        simp only [if_neg this]
      rw [this, new_fresh]
    · have h := h.resolve_right hle
      show ((st.new (some s) all).kill es).obj x = _
      rw [St.kill]
      simp only [if_neg h]
      exact hnew _ _ x hx
    · show ¬ (((st.new (some s) all).kill es).obj x).alive = true
      rw [St.kill]
      simp [hx]

end Verif.Ref
