import Verif.Ref.Prim
/-!
# What operations leave alone
-/

namespace Verif.Ref
open Verif

/-- What may become of an object: a reference refers to the same object for ever, unresolved references remain references,
and what is referred to does not become a reference. -/
structure Evolve (o o' : Obj) : Prop where
  ref : ∀ t, o.slot = .ref t → o'.slot = .ref t
  proxy : ∀ t p k, o.slot = .proxy t p k → o'.slot.plain = false
  plain : o.slot.plain = true → ∀ k, o.rd = some k → o'.slot.plain = true ∧ o'.rd = some k

theorem Evolve.refl (o : Obj) : Evolve o o := ⟨fun _ h => h, fun _ _ _ h => by rw [h]; rfl, fun h _ h2 => ⟨h, h2⟩⟩

theorem Evolve.trans {a b c : Obj} (h : Evolve a b) (h2 : Evolve b c) : Evolve a c where
  ref t h3 := h2.ref t (h.ref t h3)
  proxy t p k h3 := by
    have h4 := h.proxy t p k h3
    cases hb : b.slot with
    | ref t => rw [h2.ref t hb]; rfl
    | proxy t p k => exact h2.proxy t p k hb
    | _ => rw [hb] at h4; cases h4
  plain h3 k h4 := by
    obtain ⟨h5, h6⟩ := h.plain h3 k h4
    exact h2.plain h5 k h6

/-- The contents of an object that is no reference. -/
theorem Evolve.write {o : Obj} {s : Slot} (h : o.slot.plain = true) (h2 : s.plain = true) : Evolve o { o with slot := s } where
  ref t h3 := by rw [h3] at h; cases h
  proxy t p k h3 := by rw [h3] at h; cases h
  plain _ k h4 := ⟨h2, h4⟩

theorem Evolve.proxied {o o' : Obj} {t : Nat} {p : VPath} {k : Option Nat} (h : o.slot = .proxy t p k) (h2 : o'.slot.plain = false) : Evolve o o' where
  ref t h3 := by rw [h] at h3; cases h3
  proxy _ _ _ _ := h2
  plain h3 := by rw [h] at h3; cases h3

/-- A new variable may become a reference. -/
theorem Evolve.fresh {o o' : Obj} (h : o.slot = .null) (h2 : o.rd = none) : Evolve o o' where
  ref t h3 := by rw [h] at h3; cases h3
  proxy _ _ _ h3 := by rw [h] at h3; cases h3
  plain _ k h3 := by rw [h2] at h3; cases h3

/-- What holds between the states before and after anything the library does: variables stay, no object comes back, and
new objects are elements of containers. -/
structure Fr (st st' : St) : Prop where
  env : st'.env = st.env
  holds : st'.holds = st.holds
  nObj : st.nObj ≤ st'.nObj
  nStore : st.nStore ≤ st'.nStore
  old : ∀ x, x < st.nObj → st'.live x → st.live x ∧ (st'.obj x).home = (st.obj x).home
  top : ∀ x, st.live x → (st.obj x).home = none → st'.live x
  new : ∀ x, st.nObj ≤ x → st'.live x → (st'.obj x).home ≠ none
  kind : ∀ s, s < st.nStore → st'.liveS s → st.liveS s ∧ ∀ sl, Fits sl (st.store s).cell → Fits sl (st'.store s).cell
  stays : ∀ x, st.live x → st'.live x → Evolve (st.obj x) (st'.obj x)

/-- The same, and no storage is put into an older one. -/
structure Bk (st st' : St) : Prop extends Fr st st' where
  edge : ∀ a b, Edge st' a b → Edge st a b ∨ st.nStore ≤ b ∧ a < b

theorem Fr.refl {st : St} (hi : Inv0 st) : Fr st st where
  env := rfl
  holds := rfl
  nObj := Nat.le_refl _
  nStore := Nat.le_refl _
  old _ _ h := ⟨h, rfl⟩
  top _ h _ := h
  new x h h2 := by have := hi.objBound x h2; omega
  kind _ _ h := ⟨h, fun _ h => h⟩
  stays _ _ _ := .refl _

theorem Bk.refl {st : St} (hi : Inv0 st) : Bk st st := ⟨.refl hi, fun _ _ h => .inl h⟩

theorem Fr.trans {a b c : St} (h : Fr a b) (h2 : Fr b c) (hi : Inv0 a) : Fr a c where
  env := by rw [h2.env, h.env]
  holds := by rw [h2.holds, h.holds]
  nObj := Nat.le_trans h.nObj h2.nObj
  nStore := Nat.le_trans h.nStore h2.nStore
  old x hx hl := by
    obtain ⟨h3, h4⟩ := h2.old x (Nat.lt_of_lt_of_le hx h.nObj) hl
    obtain ⟨h5, h6⟩ := h.old x hx h3
    exact ⟨h5, by rw [h4, h6]⟩
  top x hx hh := by
    have h3 := h.top x hx hh
    exact h2.top x h3 (by rw [(h.old x (hi.objBound x hx) h3).2]; exact hh)
  new x hx hl := by
    by_cases hb : x < b.nObj
    · obtain ⟨h3, h4⟩ := h2.old x hb hl
      rw [h4]; exact h.new x hx h3
    · exact h2.new x (by omega) hl
  kind s hs hl := by
    obtain ⟨h3, h4⟩ := h2.kind s (Nat.lt_of_lt_of_le hs h.nStore) hl
    obtain ⟨h5, h6⟩ := h.kind s hs h3
    exact ⟨h5, fun sl h => h4 sl (h6 sl h)⟩
  stays x hx hl := by
    have hb := (h2.old x (Nat.lt_of_lt_of_le (hi.objBound x hx) h.nObj) hl).1
    exact (h.stays x hx hb).trans (h2.stays x hb hl)

theorem Bk.trans {a b c : St} (h : Bk a b) (h2 : Bk b c) (hi : Inv0 a) : Bk a c where
  toFr := h.toFr.trans h2.toFr hi
  edge x y he := by
    rcases h2.edge x y he with h3 | h3
    · exact h.edge x y h3
    · have := h.nStore; exact .inr ⟨by omega, h3.2⟩

theorem Below.dead {st : St} {a b : Nat} (h : Below st a b) (ha : ¬ st.liveS a) : a = b := by
  cases h with
  | refl => rfl
  | head e _ => exact absurd e.1 ha

theorem Below.alive {st : St} (hi : Inv0 st) {a b : Nat} (h : Below st a b) (ha : st.liveS a) : st.liveS b := by
  induction h with
  | refl => exact ha
  | head e _ ih =>
    obtain ⟨h1, x, h2, h3⟩ := e
    exact ih (hi.stoLive x _ (hi.elems _ x h1 h2).1 h3)

theorem Bk.below {st st' : St} (hb : Bk st st') (hi : Inv0 st) {a b : Nat} (h : Below st' a b) (hlt : b < st.nStore) : Below st a b := by
  induction h with
  | refl => exact .refl _
  | head e _ ih =>
    have ih := ih hlt
    rcases hb.edge _ _ e with h1 | h1
    · exact .head h1 ih
    · have := ih.dead fun hl => by have := hi.storeBound _ hl; omega
      omega

theorem Bk.up {st st' : St} (hb : Bk st st') (hi : Inv0 st) {a b : Nat} (h : Below st' a b) (ha : st.nStore ≤ a) : a ≤ b := by
  induction h with
  | refl => exact Nat.le_refl _
  | head e _ ih =>
    rcases hb.edge _ _ e with h1 | h1
    · have := hi.storeBound _ h1.1; omega
    · have := ih h1.1; omega

theorem Bk.cyc {st st' : St} (hb : Bk st st') (hi : Inv0 st) (h : Cyc st') : Cyc st := by
  obtain ⟨a, b, h1, h2⟩ := h
  by_cases ha : a < st.nStore
  · have h3 := hb.below hi h2 ha
    rcases hb.edge a b h1 with h4 | h4
    · exact ⟨a, b, h4, h3⟩
    · have := h3.dead fun hl => by have := hi.storeBound _ hl; omega
      omega
  · rcases hb.edge a b h1 with h4 | h4
    · have := hi.storeBound a h4.1; omega
    · have := hb.up hi h2 h4.1; omega

theorem Bk.bad {st st' : St} (hb : Bk st st') (hi : Inv0 st) {p : Nat} (hp : st.live p) (hs : st'.sl p = st.sl p) (h : BadProxy st' p) :
    BadProxy st p := by
  obtain ⟨t, path, k, h, h1, h2, h3, h4⟩ := h
  rw [hs] at h1
  obtain ⟨h5, h6⟩ := hb.old t (hi.tgtBound p t hp (by rw [h1]; rfl)) h2
  rw [h6] at h3
  exact ⟨t, path, k, h, h1, h5, h3, hb.below hi h4 (hi.storeBound _ (hi.home t h h5 h3).1)⟩

/-! ## Running -/

@[simp] theorem run_pure (a : α) (st : St) : (pure a : M α) st = .ok a st := rfl

theorem run_bind (m : M α) (f : α → M β) (st : St) :
    (m >>= f) st = match m st with
      | .ok a st => f a st
      | .thr e st => .thr e st
      | .ub => .ub := rfl

theorem bind_ok {m : M α} {f : α → M β} {st st' : St} {a : α} (h : m st = .ok a st') : (m >>= f) st = f a st' := by rw [run_bind, h]
theorem bind_thr {m : M α} {f : α → M β} {st st' : St} {e : Err} (h : m st = .thr e st') : (m >>= f) st = .thr e st' := by rw [run_bind, h]
theorem bind_ub {m : M α} {f : α → M β} {st : St} (h : m st = .ub) : (m >>= f) st = .ub := by rw [run_bind, h]

theorem run_modify (f : St → St) (st : St) : modify f st = .ok () (f st) := rfl
theorem run_deref {st : St} {x : Nat} (h : st.live x) : deref x st = .ok (st.obj x) st := by simp only [deref]; rw [if_pos h]
theorem run_deref_dead {st : St} {x : Nat} (h : ¬ st.live x) : deref x st = .ub := by simp only [deref]; rw [if_neg h]
theorem run_load {st : St} {s : Nat} (h : st.liveS s) : load s st = .ok (st.store s).cell st := by simp only [load]; rw [if_pos h]
theorem run_load_dead {st : St} {s : Nat} (h : ¬ st.liveS s) : load s st = .ub := by simp only [load]; rw [if_neg h]
theorem run_plain {st : St} {x : Nat} (h : st.live x) (hp : (st.sl x).plain = true) : derefPlain x st = .ok (st.sl x) st := by
  rw [derefPlain, bind_ok (run_deref h), if_pos hp]; rfl
theorem run_plain_dead {st : St} {x : Nat} (h : ¬ st.live x) : derefPlain x st = .ub := by
  rw [derefPlain, bind_ub (run_deref_dead h)]

/-- The outcomes of a function: `Q` for what it returns, `E` after an exception, `B` if it is undefined. -/
def Tri (st : St) (m : M α) (B : Prop) (Q : α → St → Prop) (E : St → Prop) : Prop :=
  match m st with
  | .ok a st' => Q a st'
  | .thr _ st' => E st'
  | .ub => B

theorem Tri.bind {st : St} {m : M α} {f : α → M β} {B B' : Prop} {Q : α → St → Prop} {Q' : β → St → Prop} {E E' : St → Prop}
    (h : Tri st m B Q E) (hb : B → B') (he : ∀ st', E st' → E' st') (h2 : ∀ a st', Q a st' → Tri st' (f a) B' Q' E') :
    Tri st (m >>= f) B' Q' E' := by
  unfold Tri at *
  rw [run_bind]
  cases hm : m st with
  | ok a st' => rw [hm] at h; exact h2 a st' h
  | thr e st' => rw [hm] at h; exact he st' h
  | ub => rw [hm] at h; exact hb h

theorem Tri.ok {st st' : St} {m : M α} {a : α} {B : Prop} {Q : α → St → Prop} {E : St → Prop} (h : m st = .ok a st') (hq : Q a st') :
    Tri st m B Q E := by unfold Tri; rw [h]; exact hq

theorem Tri.thr {st st' : St} {m : M α} {e : Err} {B : Prop} {Q : α → St → Prop} {E : St → Prop} (h : m st = .thr e st') (hq : E st') :
    Tri st m B Q E := by unfold Tri; rw [h]; exact hq

theorem Tri.ub {st : St} {m : M α} {B : Prop} {Q : α → St → Prop} {E : St → Prop} (h : m st = .ub) (hq : B) :
    Tri st m B Q E := by unfold Tri; rw [h]; exact hq

theorem Tri.mono {st : St} {m : M α} {B B' : Prop} {Q Q' : α → St → Prop} {E E' : St → Prop} (h : Tri st m B Q E)
    (hb : B → B') (hq : ∀ a st', Q a st' → Q' a st') (he : ∀ st', E st' → E' st') : Tri st m B' Q' E' := by
  unfold Tri at *
  cases hm : m st with
  | ok a st' => rw [hm] at h; exact hq a st' h
  | thr e st' => rw [hm] at h; exact he st' h
  | ub => rw [hm] at h; exact hb h

/-- After a known first step. -/
theorem Tri.after {st st' : St} {m : M α} {f : α → M β} {a : α} {B : Prop} {Q : β → St → Prop} {E : St → Prop} (h : m st = .ok a st')
    (h2 : Tri st' (f a) B Q E) : Tri st (m >>= f) B Q E := by unfold Tri at *; rw [bind_ok h]; exact h2

/-! ## References are turned -/

/-- The reference `r` was made to refer to something else.  What dies with the storage it kept. -/
structure Turn (st st' : St) (r : Nat) : Prop where
  inv : Inv st'
  bk : Bk st st'
  others : ∀ y, y ≠ r → st'.live y → st'.sl y = st.sl y
  objs : ∀ y, y ≠ r → st'.live y → st'.obj y = st.obj y ∨ (st'.sl r).tgt = some y
  cells : ∀ s, (st'.store s).cell = (st.store s).cell
  noNew : ∀ y, st'.live y → st.live y
  noNewS : ∀ s, st'.liveS s → st.liveS s
  nObj : st'.nObj = st.nObj
  dead : ∀ y, st.live y → ¬ st'.live y → ∃ h t p k, (st.obj y).home = some h ∧ st.sl r = .proxy t p (some k) ∧ Below st k h

theorem Turn.refl {st : St} (hi : Inv st) (r : Nat) : Turn st st r where
  inv := hi
  bk := .refl hi.toInv0
  others _ _ _ := rfl
  objs _ _ _ := .inl rfl
  cells _ := rfl
  noNew _ h := h
  noNewS _ h := h
  nObj := rfl
  dead _ h h2 := absurd h h2

/-- The slot of a reference after it gave back what it keeps. -/
def Slot.released : Slot → Slot
  | .proxy t _ _ => .ref t
  | s => s

theorem released_plain (s : Slot) : s.released.plain = s.plain := by cases s <;> rfl
theorem released_tgt (s : Slot) : s.released.tgt = s.tgt := by cases s <;> rfl

/-- Without the object `x`, nothing but what it owned is without owner. -/
theorem setSlot_unowned {st : St} (hi : Inv st) {x : Nat} {new : Slot} (hx : st.live x) {g : Nat} (hg : st.liveS g)
    (ho : ¬ Owned (st.setSlot x new) g) : (st.sl x).sto = some g := by
  rcases hi.owned g hg with h | ⟨y, h1, h2⟩
  · exact absurd (Or.inl h) ho
  · by_cases e : y = x
    · rw [← e]; exact h2
    · exact absurd (Or.inr ⟨y, (setSlot_live ..).2 h1, by rw [setSlot_sl, if_neg e]; exact h2⟩) ho

theorem edge_setSlot {st : St} (hi : Inv0 st) {x : Nat} {new : Slot} (hx : st.live x) {a b : Nat} (h : Edge (st.setSlot x new) a b)
    (ha : (st.obj x).home ≠ some a) : Edge st a b := by
  obtain ⟨h1, e, h2, h3⟩ := h
  refine ⟨h1, e, h2, ?_⟩
  rw [setSlot_sl] at h3
  by_cases he : e = x
  · subst he; exact absurd (hi.elems a e h1 h2).2.2 ha
  · rwa [if_neg he] at h3

theorem fr_collect {st st1 st' : St} (hi : Inv0 st) (hc : Collects st1 st') (hal : ∀ x, st1.live x ↔ st.live x)
    (hho : ∀ x, (st1.obj x).home = (st.obj x).home) (he : st1.env = st.env) (hh : st1.holds = st.holds) (hn : st1.nObj = st.nObj)
    (hs : st.nStore ≤ st1.nStore) (hst : ∀ s, s < st.nStore → st1.store s = st.store s)
    (hev : ∀ x, st.live x → Evolve (st.obj x) (st1.obj x)) : Fr st st' where
  env := by rw [hc.env, he]
  holds := by rw [hc.holds, hh]
  nObj := by rw [hc.nObj, hn]; exact Nat.le_refl _
  nStore := by rw [hc.nStore]; exact hs
  old x _ hl := ⟨(hal x).1 (hc.obj x hl).1, by rw [hc.home, hho]⟩
  top x hx hh := hc.top x ((hal x).2 hx) (by rw [hho]; exact hh)
  new x hx hl := by have := hi.objBound x ((hal x).1 (hc.obj x hl).1); omega
  kind s hs hl := by
    obtain ⟨h1, h2⟩ := hc.store s
    have h2 := h2 hl
    rw [St.liveS, hst s hs] at h2
    exact ⟨h2, fun sl h => by rw [h1, hst s hs]; exact h⟩
  stays x hx hl := by rw [(hc.obj x hl).2]; exact hev x hx

theorem evolve_setSlot {st : St} {x : Nat} {new : Slot} (h : Evolve (st.obj x) { st.obj x with slot := new }) (y : Nat) (_ : st.live y) :
    Evolve (st.obj y) ((st.setSlot x new).obj y) := by
  by_cases e : y = x
  · subst e; simp only [St.setSlot, St.setObj, if_pos]; exact h
  · simp only [St.setSlot, St.setObj, if_neg e]; exact .refl _

theorem release_spec {st : St} (hi : Inv st) {r : Nat} (hr : st.live r) (hh : (st.obj r).home = none) :
    ∃ st', release r st = .ok () st' ∧ Turn st st' r ∧ st'.live r ∧ st'.obj r = { st.obj r with slot := (st.sl r).released } ∧
      ∀ y, y ≠ r → st'.live y → st'.obj y = st.obj y := by
  by_cases hp : ∃ t p k, st.sl r = .proxy t p k
  · obtain ⟨t, p, k, hp⟩ := hp
    have h0 : Inv0 (st.setSlot r (.ref t)) := by
      refine setSlot_inv0 hi.toInv0 hr ?_ ?_ ?_
      · rw [hp]; rfl
      · rw [hp]; rfl
      · intro s hs; cases hs
    obtain ⟨hc, hi'⟩ := collect_inv h0
    have hl : (st.setSlot r (.ref t)).collect.live r := hc.top r ((setSlot_live ..).2 hr) (by rw [setSlot_home]; exact hh)
    refine ⟨(st.setSlot r (.ref t)).collect, ?_, ?_, hl, ?_, ?_⟩
    · rw [release, bind_ok (run_deref hr)]
      simp only [St.sl] at hp
      simp only [hp]
      rw [setSlot, bind_ok (run_deref hr), bind_ok (run_modify _ _), bind_ok (run_deref hl)]
      rfl
    · exact {
        inv := hi'
        bk := {
          toFr := fr_collect hi.toInv0 hc (setSlot_live _ _ _) (setSlot_home _ _ _) rfl rfl rfl (Nat.le_refl _) (fun _ _ => rfl)
            (evolve_setSlot (.proxied hp rfl))
          edge := fun a b h => .inl (edge_setSlot hi.toInv0 hr (hc.edge a b h) (by rw [hh]; simp)) }
        others := fun y hy hl => by rw [St.sl, (hc.obj y hl).2, ← St.sl, setSlot_sl, if_neg hy]
        objs := fun y hy hl => .inl (by rw [(hc.obj y hl).2]; simp [St.setSlot, St.setObj, hy])
        cells := fun s => (hc.store s).1
        noNew := fun y hl => (setSlot_live ..).1 (hc.obj y hl).1
        noNewS := fun s hs => (hc.store s).2 hs
        nObj := hc.nObj
        dead := fun y hy hd => by
          obtain ⟨s, h1, g, h2, h3, h4⟩ := hc.deadObj h0 ((setSlot_live ..).2 hy) hd
          rw [setSlot_home] at h1
          have h5 := setSlot_unowned hi hr h2 h3
          rw [hp] at h5
          cases h5
          exact ⟨s, t, p, g, h1, hp, h4.mono fun a b h => edge_setSlot hi.toInv0 hr h (by rw [hh]; simp)⟩ }
    · rw [(hc.obj r hl).2, hp]; simp [St.setSlot, St.setObj, Slot.released]
    · intro y hy hl
      rw [(hc.obj y hl).2]; simp [St.setSlot, St.setObj, hy]
  · refine ⟨st, ?_, .refl hi r, hr, ?_, fun _ _ _ => rfl⟩
    · rw [release, bind_ok (run_deref hr)]
      cases hs : (st.obj r).slot <;> first | rfl | exact absurd ⟨_, _, _, hs⟩ hp
    · have : (st.sl r).released = st.sl r := by
        cases hs : st.sl r <;> first | rfl | exact absurd ⟨_, _, _, hs⟩ hp
      rw [this]

/-- The flag of an object that is no reference. -/
theorem ensureRef_spec {st : St} (hi : Inv st) {t : Nat} (ht : st.live t) (hp : (st.sl t).plain = true) :
    ∃ k st', ensureRef t st = .ok k st' ∧ Inv st' ∧ (st'.obj t).rd = some k ∧ (∀ k', (st.obj t).rd = some k' → (st'.obj t).rd = some k') ∧ (∀ x, (st'.obj x).alive = (st.obj x).alive ∧
      (st'.obj x).home = (st.obj x).home ∧ (st'.obj x).slot = (st.obj x).slot) ∧ (∀ x, x ≠ t → st'.obj x = st.obj x) ∧ st'.store = st.store ∧
      st'.nObj = st.nObj ∧ st'.nStore = st.nStore ∧ st'.holds = st.holds ∧ st'.env = st.env := by
  cases hk : (st.obj t).rd with
  | some k =>
    refine ⟨k, st, ?_, hi, hk, fun k' h => by rw [hk, h], fun _ => ⟨rfl, rfl, rfl⟩, fun _ _ => rfl, rfl, rfl, rfl, rfl, rfl⟩
    rw [ensureRef, bind_ok (run_deref ht)]
    simp only [hk]; rfl
  | none =>
    have h : ensureRef t st = newRd t st := by rw [ensureRef, bind_ok (run_deref ht)]; simp only [hk]
    cases hn : newRd t st with
    | ok k st' =>
      obtain ⟨h1, h2, _, h3⟩ := newRd_inv hi ht hp hk hn
      exact ⟨k, st', by rw [h, hn], h1, h2, (fun k' h => by cases h), h3⟩
    | thr e st' => simp [newRd] at hn
    | ub => simp [newRd] at hn

theorem edge_same {st st' : St} (h1 : ∀ x, st'.sl x = st.sl x) (h2 : st'.store = st.store) {a b : Nat} (h : Edge st' a b) : Edge st a b := by
  obtain ⟨h3, e, h4, h5⟩ := h
  rw [St.liveS, h2] at h3
  rw [St.el, h2] at h4
  rw [h1] at h5
  exact ⟨h3, e, h4, h5⟩

/-- `RefInit`, `ProxyInit`: the common part. -/
theorem turn_spec {st : St} (hi : Inv st) {t r : Nat} (mk : Option Nat → Slot) (hmk : ∀ a, (mk a).tgt = some t)
    (hsto : ∀ a, (mk a).sto = none ∨ (mk a).sto = a) (hr : st.live r)
    (hh : (st.obj r).home = none) (hlike : (∃ t p k, st.sl r = .proxy t p k) ∨ st.sl r = .null ∧ (st.obj r).rd = none) (ht : st.live t) (hp : (st.sl t).plain = true) (hrt : t ≠ r)
    {m : M Unit} (hm : ∀ st1, m st1 = (release r >>= fun _ => ensureRef t >>= fun k => derefPlain t >>= fun s => setRef r (mk s.sto) k) st1) :
    (m st = .ub ∧ ∃ st1, Turn st st1 r ∧ ¬ st1.live t) ∨
    ∃ st', m st = .ok () st' ∧ Turn st st' r ∧ st'.sl r = mk (st.sl t).sto ∧ st'.live t := by
  obtain ⟨st1, h1, htu, hr1, hro, hoth⟩ := release_spec hi hr hh
  rw [hm, bind_ok h1]
  by_cases hl : st1.live t
  · right
    have hsl1 : st1.sl t = st.sl t := htu.others t hrt hl
    have hp1 : (st1.sl t).plain = true := by rw [hsl1]; exact hp
    obtain ⟨k, st2, h2, hi2, hk, hrd, hsame, hoth2, hst, hno, hns, hho, hen⟩ := ensureRef_spec htu.inv hl hp1
    rw [bind_ok h2]
    have hr2 : st2.live r := by rw [St.live, (hsame r).1]; exact hr1
    have ht2 : st2.live t := by rw [St.live, (hsame t).1]; exact hl
    have hsl2 : st2.sl t = st.sl t := by rw [St.sl, (hsame t).2.2]; exact hsl1
    have hp2 : (st2.sl t).plain = true := by rw [hsl2]; exact hp
    have hro2 : st2.obj r = { st.obj r with slot := (st.sl r).released } := by rw [hoth2 r (Ne.symm hrt), hro]
    rw [bind_ok (run_plain ht2 hp2), setRef, bind_ok (run_deref hr2)]
    have hh2 : (st2.obj r).home = none := by rw [hro2]; exact hh
    have hsto2 : ∀ a, (mk (st2.sl t).sto).sto = some a → st2.liveS a := by
      intro a ha
      rcases hsto (st2.sl t).sto with h | h
      · rw [h] at ha; cases ha
      · rw [h] at ha; exact hi2.stoLive t a ht2 ha
    have hi3 := setRef_inv0 hi2.toInv0 (r := r) (t := t) (k := k) (s := mk (st2.sl t).sto) hr2 hh2 (by
      rcases hlike with h | h
      · left; rw [St.sl, hro2]; show ((st.sl r).released).plain = false; rw [released_plain]; obtain ⟨_, _, _, h⟩ := h; rw [h]; rfl
      · right; rw [hro2]; exact h.2) ht2 hp2 hrt hk (hmk _) hsto2
    generalize hst3 : st2.setObj r { st2.obj r with slot := mk (st2.sl t).sto, rd := some k } = st3 at hi3
    have hal : ∀ x, st3.live x ↔ st1.live x := by
      intro x
      rw [← hst3, St.live, St.setObj]
      by_cases e : x = r
      · subst e; simp only [if_pos]; rw [(hsame x).1]
      · simp only [if_neg e]; rw [(hsame x).1]
    have hhome : ∀ x, (st3.obj x).home = (st1.obj x).home := by
      intro x
      rw [← hst3, St.setObj]
      by_cases e : x = r
      · subst e; simp only [if_pos]; rw [(hsame x).2.1]
      · simp only [if_neg e]; rw [(hsame x).2.1]
    have hsl3 : ∀ x, x ≠ r → st3.sl x = st1.sl x := by
      intro x e
      rw [← hst3, St.sl, St.setObj]
      simp only [if_neg e]
      exact (hsame x).2.2
    have hslr : st3.sl r = mk (st.sl t).sto := by
      rw [← hst3, St.sl, St.setObj]; simp only [if_pos]; rw [hsl2]
    have hstore : st3.store = st1.store := by rw [← hst3]; exact hst
    have hi3' : Inv st3 := by
      refine ⟨hi3, fun s hs => ?_⟩
      rw [St.liveS, hstore] at hs
      rcases htu.inv.owned s hs with h | ⟨x, h3, h4⟩
      · left; rw [← hst3]; show s ∈ st2.holds; rw [hho]; exact h
      · have hxr : x ≠ r := by
          rintro rfl
          rw [St.sl, hro] at h4
          have h4 : ((st.sl x).released).sto = some s := h4
          rcases hlike with h | h
          · obtain ⟨_, _, _, h⟩ := h; rw [h] at h4; cases h4
          · rw [h.1] at h4; cases h4
        exact .inr ⟨x, (hal x).2 h3, by rw [hsl3 x hxr]; exact h4⟩
    refine ⟨st3, by rw [← hst3]; rfl, ?_, hslr, (hal t).2 hl⟩
    exact {
      inv := hi3'
      bk := {
        toFr := {
          env := by rw [← hst3]; show st2.env = _; rw [hen, htu.bk.env]
          holds := by rw [← hst3]; show st2.holds = _; rw [hho, htu.bk.holds]
          nObj := by rw [← hst3]; show _ ≤ st2.nObj; rw [hno]; exact htu.bk.nObj
          nStore := by rw [← hst3]; show _ ≤ st2.nStore; rw [hns]; exact htu.bk.nStore
          old := fun x hx hl => by rw [hhome]; exact htu.bk.old x hx ((hal x).1 hl)
          top := fun x hx hh => (hal x).2 (htu.bk.top x hx hh)
          new := fun x hx hl => by rw [hhome]; exact htu.bk.new x hx ((hal x).1 hl)
          kind := fun s hs hl => by
            rw [St.liveS, hstore] at hl
            rw [hstore]
            exact htu.bk.kind s hs hl
          stays := fun x hx hl => by
            by_cases e : x = r
            · subst e
              have hs3 : (st3.obj x).slot.plain = false := tgt_plain (t := t) (by rw [← St.sl, hslr]; exact hmk _)
              rcases hlike with ⟨_, _, _, h⟩ | h
              · exact .proxied h hs3
              · exact .fresh h.1 h.2
            · have h1 := (hal x).1 hl
              have h2 : st1.obj x = st.obj x := hoth x e h1
              have h3 : st3.obj x = st2.obj x := by rw [← hst3, St.setObj]; simp only [if_neg e]
              rw [h3, ← h2]
              by_cases e' : x = t
              · have h4 := (hsame x).2.2
                exact ⟨fun _ h => by rw [h4]; exact h, fun _ _ _ h => by rw [h4, h]; rfl, fun h k hk' => ⟨by rw [h4]; exact h, by
                  rw [e'] at hk' ⊢; exact hrd k hk'⟩⟩
              · rw [hoth2 x e']; exact .refl _ }
        edge := fun a b h => by
          refine htu.bk.edge a b ?_
          obtain ⟨h5, e, h6, h7⟩ := h
          rw [St.liveS, hstore] at h5
          rw [St.el, hstore] at h6
          have : e ≠ r := by
            rintro rfl
            have := (htu.inv.elems a e h5 h6).2.2
            rw [hro] at this
            rw [hh] at this
            cases this
          rw [hsl3 e this] at h7
          exact ⟨h5, e, h6, h7⟩ }
      others := fun y hy hl => by rw [hsl3 y hy]; exact htu.others y hy ((hal y).1 hl)
      objs := fun y hy hl => by
        by_cases e : y = t
        · right; rw [hslr, hmk, e]
        · left
          rw [← hst3, St.setObj]
          simp only [if_neg hy]
          rw [hoth2 y e, hoth y hy ((hal y).1 hl)]
      cells := fun s => by rw [hstore]; exact htu.cells s
      noNew := fun y hl => htu.noNew y ((hal y).1 hl)
      noNewS := fun s hs => htu.noNewS s (by rw [St.liveS, ← hstore]; exact hs)
      nObj := by rw [← hst3]; show st2.nObj = _; rw [hno, htu.nObj]
      dead := fun y hy hd => htu.dead y hy fun h => hd ((hal y).2 h) }
  · left
    have he : ensureRef t st1 = .ub := by rw [ensureRef, bind_ub (run_deref_dead hl)]
    exact ⟨bind_ub he, st1, htu, hl⟩

end Verif.Ref
