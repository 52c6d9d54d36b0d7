import Verif.Ref.Create
/-!
# Local variables, assignment
-/

namespace Verif.Ref
open Verif

/-! ## Local variables -/

/-- A local variable that was just made. -/
structure Fresh (st : St) (d : Nat) : Prop where
  live : st.live d
  home : (st.obj d).home = none
  null : st.sl d = .null
  rd : (st.obj d).rd = none
  unref : Unref st d

theorem Fresh.value {st : St} {d : Nat} (h : Fresh st d) : Value st d := ⟨h.live, by rw [h.null]; rfl⟩

theorem Fresh.like {st : St} {d : Nat} (h : Fresh st d) : RefLike st d := ⟨h.live, h.home, .inr ⟨h.null, h.rd⟩⟩

theorem Fresh.keep {st st' : St} {d : Nat} (h : Fresh st d) (h2 : st'.obj d = st.obj d) (h3 : Unref st' d) : Fresh st' d where
  live := by rw [St.live, h2]; exact h.live
  home := by rw [h2]; exact h.home
  null := by rw [St.sl, h2]; exact h.null
  rd := by rw [h2]; exact h.rd
  unref := h3

/-- The state with a new local variable. -/
structure Temp (st st1 : St) (d : Nat) : Prop where
  inv : Inv st1
  fresh : Fresh st1 d
  num : d = st.nObj
  nObj : st1.nObj = st.nObj + 1
  nStore : st1.nStore = st.nStore
  obj : ∀ x, x ≠ d → st1.obj x = st.obj x
  store : st1.store = st.store
  holds : st1.holds = st.holds
  env : st1.env = st.env

theorem temp_temp {st : St} (hi : Inv st) : Temp st (st.new none [.null]) st.nObj := by
  have hg := temp_grows hi.toInv0
  have h1 : Inv (st.new none [.null]) := ⟨hg.inv hi.toInv0, fun y hy => hg.owned hi.toInv0 (hi.owned y hy)⟩
  have hlx := hg.isNew 0 (by simp)
  obtain ⟨sl, h2, h3⟩ := hg.newObj (st.nObj + 0) (by omega) hlx
  simp only [Nat.add_zero, Nat.sub_self, List.getElem?_cons_zero, Option.some.injEq] at h2 h3 hlx
  subst h2
  refine ⟨h1, ⟨hlx, by rw [h3], by rw [St.sl, h3], by rw [h3], ?_⟩, rfl, rfl, rfl, ?_, rfl, rfl, rfl⟩
  · intro r hr ht
    by_cases e : r = st.nObj
    · subst e; rw [St.sl, h3] at ht; cases ht
    · rcases (hg.live hi.toInv0 r).1 hr with h | h
      · rw [St.sl, hg.old hi.toInv0 h] at ht
        have := hi.tgtBound r _ h ht
        omega
      · simp at h; omega
  · intro x hx
    by_cases e : x < st.nObj
    · exact hg.oldObj x e
    · have : [Slot.null][x - st.nObj]? = none := by
        rw [List.getElem?_eq_none]; simp; omega
      simp only [St.new, if_neg e, this]

theorem Temp.live {st st1 : St} {d : Nat} (h : Temp st st1 d) (hi : Inv0 st) {x : Nat} (hx : st.live x) : st1.live x ∧ st1.obj x = st.obj x ∧ x ≠ d := by
  have e : x ≠ d := by rw [h.num]; have := hi.objBound x hx; omega
  exact ⟨by rw [St.live, h.obj x e]; exact hx, h.obj x e, e⟩

theorem Temp.value {st st1 : St} {d : Nat} (h : Temp st st1 d) (hi : Inv0 st) {x : Nat} (hx : Value st x) : Value st1 x := by
  obtain ⟨h1, h2, _⟩ := h.live hi hx.1
  exact ⟨h1, by rw [St.sl, h2]; exact hx.2⟩

theorem Temp.edge {st st1 : St} {d : Nat} (h : Temp st st1 d) {a b : Nat} (he : Edge st1 a b) : Edge st a b := by
  obtain ⟨h1, e, h2, h3⟩ := he
  have hd : e ≠ d := by
    rintro rfl
    have := (h.inv.elems a e h1 h2).2.2
    rw [h.fresh.home] at this; cases this
  rw [St.liveS, h.store] at h1
  rw [St.el, h.store] at h2
  rw [St.sl, h.obj e hd] at h3
  exact ⟨h1, e, h2, h3⟩

theorem Temp.cyc {st st1 : St} {d : Nat} (h : Temp st st1 d) (hc : Cyc st1) : Cyc st := by
  obtain ⟨a, b, h1, h2⟩ := hc
  exact ⟨a, b, h.edge h1, h2.mono fun _ _ => h.edge⟩

theorem Temp.bad {st st1 : St} {d : Nat} (h : Temp st st1 d) {p : Nat} (hb : BadProxy st1 p) : BadProxy st p := by
  obtain ⟨t, path, k, s, h1, h2, h3, h4⟩ := hb
  have hp : p ≠ d := by rintro rfl; rw [h.fresh.null] at h1; cases h1
  have ht : t ≠ d := by rintro rfl; rw [h.fresh.home] at h3; cases h3
  rw [St.sl, h.obj p hp] at h1
  rw [St.live, h.obj t ht] at h2
  rw [h.obj t ht] at h3
  exact ⟨t, path, k, s, h1, h2, h3, h4.mono fun _ _ => h.edge⟩

theorem Temp.unref {st st1 : St} {d : Nat} (h : Temp st st1 d) {y : Nat} (hy : Unref st y) : Unref st1 y := by
  intro r hr
  by_cases e : r = d
  · rw [e, h.fresh.null]; simp [Slot.tgt]
  · rw [St.sl, h.obj r e]; exact hy r (by rw [St.live, ← h.obj r e]; exact hr)

/-- The local variable is destroyed. -/
theorem Temp.close {st st1 st3 : St} {d : Nat} (h : Temp st st1 d) (hi : Inv0 st) (h3 : Safe st1 st3) :
    Shrinks st3 [d] (st3.kill [d]) ∧ Collects (st3.kill [d]) (st3.kill [d]).collect ∧ Safe st (st3.kill [d]).collect := by
  obtain ⟨hi3, hf⟩ := h3
  have hl := hf.top d h.fresh.live h.fresh.home
  have hh : (st3.obj d).home = none := by
    rw [(hf.old d (by rw [h.nObj, h.num]; omega) hl).2]; exact h.fresh.home
  have hsh := kill_shrinks hi3.toInv0 hl hh (fun v hv => by
    rw [hf.env, h.env] at hv
    have := hi.objBound d (hi.env v d hv).1
    rw [h.num] at this; omega)
  have h0 := hsh.inv hi3.toInv0
  obtain ⟨hc, hi'⟩ := collect_inv h0
  refine ⟨hsh, hc, hi', ?_⟩
  exact {
    env := by rw [hc.env, hsh.env, hf.env, h.env]
    holds := by rw [hc.holds, hsh.holds, hf.holds, h.holds]
    nObj := by rw [hc.nObj, hsh.nObj]; have := hf.nObj; rw [h.nObj] at this; omega
    nStore := by rw [hc.nStore, hsh.nStore, ← h.nStore]; exact hf.nStore
    old := fun x hx hl => by
      have e : x ≠ d := by rw [h.num]; omega
      obtain ⟨h1, h2⟩ := hc.obj x hl
      have h4 := ((hsh.live x).1 h1).1
      obtain ⟨h5, h6⟩ := hf.old x (by rw [h.nObj]; omega) h4
      rw [St.live, h.obj x e] at h5
      exact ⟨h5, by rw [h2, hsh.same h1, h6, h.obj x e]⟩
    top := fun x hx hh => by
      obtain ⟨h1, h2, e⟩ := h.live hi hx
      have h4 := hf.top x h1 (by rw [h2]; exact hh)
      have h5 := (hsh.live x).2 ⟨h4, by simpa using e⟩
      refine hc.top x h5 ?_
      rw [hsh.same h5, (hf.old x (by rw [h.nObj]; have := hi.objBound x hx; omega) h4).2, h2]
      exact hh
    new := fun x hx hl => by
      obtain ⟨h1, h2⟩ := hc.obj x hl
      obtain ⟨h4, h5⟩ := (hsh.live x).1 h1
      rw [h2, hsh.same h1]
      refine hf.new x ?_ h4
      have e : x ≠ d := by simpa using h5
      have := h.num
      rw [h.nObj]
      omega
    kind := fun s hs hl => by
      obtain ⟨h1, h2⟩ := hc.store s
      obtain ⟨h4, h5, _⟩ := hsh.store s (h2 hl)
      obtain ⟨h6, h7⟩ := hf.kind s (by rw [h.nStore]; exact hs) h4
      rw [h.store] at h7
      rw [St.liveS, h.store] at h6
      exact ⟨h6, fun sl h => by rw [h1]; exact h5 sl (h7 sl h)⟩
    stays := fun x hx hl => by
      obtain ⟨h1, h2⟩ := hc.obj x hl
      obtain ⟨h4, h5, _⟩ := h.live hi hx
      rw [h2, hsh.same h1, ← h5]
      exact hf.stays x h4 ((hsh.live x).1 h1).1 }

/-- Destroying a local variable that owns nothing. -/
theorem kill_null {st : St} (hi : Inv st) {d : Nat} (hsh : Shrinks st [d] (st.kill [d])) (hs : (st.sl d).sto = none) : Inv (st.kill [d]) := by
  refine ⟨hsh.inv hi.toInv0, fun s h => ?_⟩
  rcases hi.owned s (hsh.store s h).1 with h1 | ⟨x, h1, h2⟩
  · exact .inl h1
  · have e : x ≠ d := by rintro rfl; rw [hs] at h2; cases h2
    have hl := (hsh.live x).2 ⟨h1, by simpa using e⟩
    exact .inr ⟨x, hl, by rw [St.sl, hsh.same hl]; exact h2⟩

theorem withTemp_note {st : St} (hi : Inv st) {f : Nat → M α} {B N : Prop} {Q : α → St → Prop}
    (h : Tri (st.new none [.null]) (f st.nObj) B (fun a st' => Safe (st.new none [.null]) st' ∧ Q a st') (fun st' => Safe (st.new none [.null]) st' ∧ N)) :
    Tri st (withTemp f) B (fun a st' => Safe st st' ∧ ∃ st3, Q a st3 ∧ Safe (st.new none [.null]) st3 ∧ st' = (st3.kill [st.nObj]).collect)
      (fun st' => Safe st st' ∧ N) := by
  have ht := temp_temp hi
  unfold Tri at h ⊢
  rw [withTemp]
  cases hf : f st.nObj (st.new none [.null]) with
  | ok a st3 =>
    rw [hf] at h
    exact ⟨(ht.close hi.toInv0 h.1).2.2, st3, h.2, h.1, rfl⟩
  | thr e st3 =>
    rw [hf] at h
    exact ⟨(ht.close hi.toInv0 h.1).2.2, h.2⟩
  | ub =>
    rw [hf] at h
    exact h

/-- Paths do not depend on what exists. -/
theorem path_kill (st : St) (xs : List Nat) : ∀ (p : VPath) (t : Nat), path? (st.kill xs) t p = path? st t p
  | [], _ => rfl
  | e :: p, t => by
    rw [path?, path?, elem_congr (st := st) (st' := st.kill xs) (by simp only [St.sl, St.kill]; split <;> rfl) (fun _ _ => rfl)]
    cases elem? st t e with
    | none => rfl
    | some c => exact path_kill st xs p c

theorem Temp.elem {st st1 : St} {d t : Nat} (h : Temp st st1 d) (hi : Inv0 st) (ht : Value st t) (e : PathElem) : elem? st1 t e = elem? st t e :=
  elem_congr (by rw [St.sl, (h.live hi ht.1).2.1]) (fun _ _ => by rw [h.store]) e

theorem Temp.path {st st1 : St} {d : Nat} (h : Temp st st1 d) (hi : Inv0 st) : ∀ (p : VPath) {t : Nat}, Value st t → path? st1 t p = path? st t p
  | [], _, _ => rfl
  | e :: p, t, ht => by
    rw [path?, path?, h.elem hi ht]
    cases he : elem? st t e with
    | none => rfl
    | some c =>
      obtain ⟨s, h1, h2⟩ := elem_mem hi ht he
      exact h.path hi p (elem_value hi ht h1 h2)

theorem Temp.room {st st1 : St} {d t : Nat} (h : Temp st st1 d) (hi : Inv0 st) (ht : st.live t) (e : PathElem) : Room st1 t e ↔ Room st t e := by
  cases e <;> rw [Room, Room, St.sl, (h.live hi ht).2.1]

theorem Temp.creatable {st st1 : St} {d : Nat} (h : Temp st st1 d) (hi : Inv0 st) : ∀ (p : VPath) {t : Nat}, Value st t →
    (Creatable st1 t p ↔ Creatable st t p)
  | [], _, _ => .rfl
  | e :: p, t, ht => by
    rw [Creatable, Creatable, h.elem hi ht]
    cases he : elem? st t e with
    | none => simp only [h.room hi ht.1]
    | some c =>
      obtain ⟨s, h1, h2⟩ := elem_mem hi ht he
      exact h.creatable hi p (elem_value hi ht h1 h2)

theorem withTemp_spec {st : St} (hi : Inv st) {f : Nat → M α} {B : Prop} {Q : α → St → Prop}
    (h : Tri (st.new none [.null]) (f st.nObj) B (fun a st' => Safe (st.new none [.null]) st' ∧ Q a st') (Safe (st.new none [.null]))) :
    Tri st (withTemp f) B (fun a st' => Safe st st' ∧ ∃ st3, Q a st3 ∧ Safe (st.new none [.null]) st3 ∧ st' = (st3.kill [st.nObj]).collect) (Safe st) := by
  have ht := temp_temp hi
  unfold Tri at h ⊢
  rw [withTemp]
  cases hf : f st.nObj (st.new none [.null]) with
  | ok a st3 =>
    rw [hf] at h
    exact ⟨(ht.close hi.toInv0 h.1).2.2, st3, h.2, h.1, rfl⟩
  | thr e st3 =>
    rw [hf] at h
    exact (ht.close hi.toInv0 h).2.2
  | ub =>
    rw [hf] at h
    exact h

/-! ## Resolving with creation -/

theorem Paths.quiet {st st' : St} {d t c : Nat} {p : VPath} (h : Paths st st' d t p c) (ht : Value st t) : Quiet st st' t := by
  intro y h1 h2 h3 h4
  refine ⟨h.frame y h1 h2 h3, fun r hr htg => ?_⟩
  by_cases hh : (st'.obj r).home = none
  · by_cases hb : r < st.nObj
    · obtain ⟨h5, h6⟩ := h.fr.old r hb hr
      rw [h6] at hh
      by_cases e : r = t
      · subst e
        rw [plain_tgt (h.reach r ht (.refl r)).1.2] at htg; cases htg
      · rw [St.sl, h.frame r h5 hh e] at htg
        exact h4 r h5 htg
    · exact h.fr.new r (by omega) hr hh
  · cases hs : (st'.obj r).home with
    | none => exact hh hs
    | some s =>
      obtain ⟨h5, h6⟩ := h.inv.home r s hr hs
      rw [plain_tgt (h.inv.elems s r h5 h6).2.1] at htg; cases htg

/-- The reference was made to refer to `c`, which may be new. -/
structure Created (st st' : St) (p t : Nat) (path : VPath) (c : Nat) : Prop where
  path : st'.live t → path? st' t path = some c
  inv : Inv st'
  bk : Bk st st'
  ref : st'.sl p = .ref c
  live : st'.live c
  quiet : Quiet st st' p
  plains : ∀ z, Value st z → st'.live z → Value st' z

theorem resolveCreate_spec {st : St} (hi : Inv st) (hn : ¬ Cyc st) (grow : Nat → Nat → Nat) {p t : Nat} {path : VPath} {k : Option Nat} (hp : st.live p)
    (hh : (st.obj p).home = none) (hs : st.sl p = .proxy t path k) :
    Tri st (resolveCreate grow p t path) (BadProxy st p) (fun _ st' => ∃ c, Created st st' p t path c)
      (fun st' => Safe st st' ∧ ¬ (st.live t ∧ Creatable st t path)) := by
  rw [resolveCreate]
  rcases checkRef_spec hi.toInv0 hp (t := t) (by rw [hs]; rfl) with ⟨h1, h2⟩ | ⟨h1, h2⟩
  · refine .after h2 ?_
    have hT := temp_temp hi
    generalize hst1 : st.new none [.null] = st1 at hT
    obtain ⟨hlp, hop, hpd⟩ := hT.live hi.toInv0 hp
    have ht1 := hT.value hi.toInv0 h1
    obtain ⟨_, _, htd⟩ := hT.live hi.toInv0 h1.1
    have hhp1 : (st1.obj p).home = none := by rw [hop]; exact hh
    have hsp1 : st1.sl p = .proxy t path k := by rw [St.sl, hop]; exact hs
    have hptr : p ≠ t := by rintro rfl; have := h1.2; rw [hs] at this; cases this
    refine (withTemp_note hi (Q := fun _ st3 => ∃ st2 c, Paths st1 st2 st.nObj t path c ∧ Resolved st2 st3 p c)
      (N := ¬ (st.live t ∧ Creatable st t path)) ?_).mono id ?_ (fun _ h => h)
    · rw [hst1]
      refine (getPathDef_spec grow path hT.inv (fun h => hn (hT.cyc h)) ht1 hT.fresh.value hT.fresh.home (Ne.symm htd)).bind False.elim
        (fun _ h => ⟨h.1, fun h2 => h.2 ((hT.creatable hi.toInv0 path h1).2 h2.2)⟩) ?_
      intro c st2 h3
      have hp2 := h3.frame p hlp hhp1 hptr
      have hbk := h3.bk (by rw [hT.fresh.null]; rfl)
      obtain ⟨ht2, hr2⟩ := h3.reach t ht1 (.refl t)
      rcases resolve_spec h3.inv (p := p) (by rw [St.live, hp2]; exact hlp) (by rw [hp2]; exact hhp1) (by rw [St.sl, hp2]; exact hsp1) ht2 hr2 with ⟨h4, h5⟩ | ⟨st3, h4, h5⟩
      · exact .ub h4 (hT.bad (hbk.bad hT.inv.toInv0 hlp (by rw [St.sl, hp2]) h5))
      · exact .ok h4 ⟨⟨h5.turn.inv, h3.fr.trans h5.turn.bk.toFr hT.inv.toInv0⟩, st2, c, h3, h5⟩
    · rintro _ st' ⟨hsafe, st3, ⟨st2, c, h3, h5⟩, hsafe3, rfl⟩
      refine ⟨c, ?_⟩
      rw [hst1] at hsafe3
      obtain ⟨hsh, hc, _⟩ := hT.close hi.toInv0 hsafe3
      have hd2 := h3.frame st.nObj hT.fresh.live hT.fresh.home (Ne.symm htd)
      have hd3l := hsafe3.2.top _ hT.fresh.live hT.fresh.home
      have hd3 : st3.sl st.nObj = .null := by
        rw [h5.turn.others _ (Ne.symm hpd) hd3l, St.sl, hd2]; exact hT.fresh.null
      have hi4 := kill_null h5.turn.inv hsh (by rw [hd3]; rfl)
      rw [collect_id hi4] at hsafe ⊢
      have hbk13 := (h3.bk (by rw [hT.fresh.null]; rfl)).trans h5.turn.bk hT.inv.toInv0
      have hkl : ∀ y, (st3.kill [st.nObj]).live y ↔ st3.live y ∧ y ≠ st.nObj := fun y => by rw [hsh.live]; simp
      have hlp4 := hsafe.2.top p hp hh
      have hc2 := h3.reach t ht1 (.refl t)
      have hcd : c ≠ st.nObj := by
        rcases hc2.2.home h3.inv.toInv0 hc2.1 with h | h
        · rw [h]; exact htd
        · rintro rfl
          rw [hd2] at h
          exact h hT.fresh.home
      refine ⟨?_, hi4, ⟨hsafe.2, fun a b h => ?_⟩, ?_, (hkl c).2 ⟨h5.live, hcd⟩, ?_, ?_⟩
      · intro hlt
        have hlt3 := ((hkl t).1 hlt).1
        rw [path_kill, path_turn h3.inv.toInv0 (by rw [h3.frame p hlp hhp1 hptr]; exact hhp1) h5.turn path hc2.1 (Ne.symm hptr) hlt3]
        exact h3.path t [] ht1 rfl
      · rcases hbk13.edge a b (hsh.edge h5.turn.inv.toInv0 h) with h | h
        · exact .inl (hT.edge h)
        · rw [hT.nStore] at h; exact .inr h
      · rw [St.sl, hsh.same hlp4]; exact h5.ref
      · intro y h6 h7 h8 h9
        obtain ⟨h10, h11, h12⟩ := hT.live hi.toInv0 h6
        have hyt : y ≠ t := by rintro rfl; exact h9 p hp (by rw [hs]; rfl)
        obtain ⟨h13, h14⟩ := h3.quiet ht1 y h10 (by rw [h11]; exact h7) hyt (hT.unref h9)
        obtain ⟨h15, h16⟩ := h5.quiet y (by rw [St.live, h13]; exact h10) (by rw [h13, h11]; exact h7) h8 h14
        have hl3 : st3.live y := by rw [St.live, h15, h13]; exact h10
        have hl4 := (hkl y).2 ⟨hl3, h12⟩
        refine ⟨by rw [hsh.same hl4, h15, h13, h11], fun r hr => ?_⟩
        rw [St.sl, hsh.same hr]
        exact h16 r ((hkl r).1 hr).1
      · intro z hz hl
        refine ⟨hl, ?_⟩
        cases hzh : ((st3.kill [st.nObj]).obj z).home with
        | some s =>
          obtain ⟨h6, h7⟩ := hi4.home z s hl hzh
          exact (hi4.elems s z h6 h7).2.1
        | none =>
          have hz3 := ((hkl z).1 hl).1
          have hz1 := hT.value hi.toInv0 hz
          have hzp : z ≠ p := by rintro rfl; have := hz.2; rw [hs] at this; cases this
          rw [St.sl, hsh.same hl, ← St.sl, h5.turn.others z hzp hz3]
          by_cases e : z = t
          · rw [e]; exact hc2.1.2
          · rw [hsh.same hl, (hsafe3.2.old z (hT.inv.objBound z hz1.1) hz3).2] at hzh
            rw [St.sl, h3.frame z hz1.1 hzh e]; exact hz1.2
  · exact .thr (bind_thr h2) ⟨⟨hi, .refl hi.toInv0⟩, fun h => h1 h.1⟩

/-- What an operation that creates what is missing works on. -/
structure Works (st st' : St) (x t : Nat) : Prop where
  path : ∀ u p k, st.sl x = .proxy u p k → st'.live u → path? st' u p = some t
  inv : Inv st'
  bk : Bk st st'
  value : Value st' t
  is : t = x ∨ st'.sl x = .ref t
  quiet : Quiet st st' x
  same : ¬ IsProxy st x → st' = st
  plain : (st.sl x).plain = true → t = x
  plains : ∀ z, Value st z → st'.live z → Value st' z

/-- What an operation that creates what is missing needs: the target exists, and the path can be created. -/
def Usable (st : St) (x : Nat) : Prop :=
  match st.sl x with
  | .ref t => st.live t
  | .proxy t p _ => st.live t ∧ Creatable st t p
  | _ => True

theorem targetCreate_spec {st : St} (hi : Inv st) (hn : ¬ Cyc st) (grow : Nat → Nat → Nat) {x : Nat} (hx : st.live x)
    (hh : (st.sl x).plain = false → (st.obj x).home = none) :
    Tri st (targetCreate grow x) (BadProxy st x) (fun t st' => Works st st' x t) (fun st' => Safe st st' ∧ ¬ Usable st x) := by
  rw [targetCreate]
  refine .after (run_deref hx) ?_
  cases hs : (st.obj x).slot with
  | ref t =>
    rcases follow_spec hi.toInv0 hx hs with ⟨h1, h2⟩ | ⟨h1, h2⟩
    · exact .ok h2 ⟨(fun u p k h => by rw [St.sl, hs] at h; cases h), hi, .refl hi.toInv0, h1, .inr hs, .refl st x, fun _ => rfl, (fun h => by rw [St.sl, hs] at h; cases h), fun _ h _ => h⟩
    · exact .thr h2 ⟨⟨hi, .refl hi.toInv0⟩, fun h => h1 (by simp only [Usable, St.sl, hs] at h; exact h)⟩
  | proxy t p k =>
    have hh := hh (by rw [St.sl, hs]; rfl)
    refine (resolveCreate_spec hi hn grow hx hh hs).bind id (fun st' h => ⟨h.1, fun h2 => h.2 (by simp only [Usable, St.sl, hs] at h2; exact h2)⟩) ?_
    rintro _ st' ⟨c, hc⟩
    have hl := hc.bk.top x hx hh
    rcases follow_spec hc.inv.toInv0 hl hc.ref with ⟨h1, h2⟩ | ⟨h1, h2⟩
    · exact .ok h2 ⟨(fun u p k h => by rw [St.sl, hs] at h; cases h; exact hc.path), hc.inv, hc.bk, h1, .inr hc.ref, hc.quiet, fun h => absurd ⟨t, p, k, hs⟩ h, (fun h => by rw [St.sl, hs] at h; cases h), hc.plains⟩
    · exact absurd hc.live h1
  | _ => exact .ok rfl ⟨(fun u p k h => by rw [St.sl, hs] at h; cases h), hi, .refl hi.toInv0, ⟨hx, by rw [St.sl, hs]; rfl⟩, .inl rfl, .refl st x, fun _ => rfl, fun _ => rfl, fun _ h _ => h⟩

theorem target_plain {st : St} {x : Nat} (hx : Value st x) : target x st = .ok x st := by
  rw [target, bind_ok (run_deref hx.1)]
  have := hx.2
  cases hs : (st.obj x).slot <;> first | rfl | (rw [St.sl, hs] at this; cases this)

theorem targetCreate_plain {st : St} {x : Nat} (hx : Value st x) (grow : Nat → Nat → Nat) : targetCreate grow x st = .ok x st := by
  rw [targetCreate, bind_ok (run_deref hx.1)]
  have := hx.2
  cases hs : (st.obj x).slot <;> first | rfl | (rw [St.sl, hs] at this; cases this)

/-! ## Storage held by the library -/

theorem hold_inv {st : St} (hi : Inv st) {a : Nat} (ha : st.liveS a) : Inv { st with holds := a :: st.holds } := by
  refine ⟨holds_inv0 hi.toInv0 fun s h => ?_, fun s h => ?_⟩
  · rcases List.mem_cons.1 h with h | h
    · rw [h]; exact ha
    · exact hi.holdLive s h
  · rcases hi.owned s h with h1 | h1
    · exact .inl (List.mem_cons_of_mem _ h1)
    · exact .inr h1

theorem hold_close {st st3 : St} (hi : Inv0 st) {a : Nat} (h3 : Safe { st with holds := a :: st.holds } st3) :
    Collects { st3 with holds := st.holds } { st3 with holds := st.holds }.collect ∧ Safe st { st3 with holds := st.holds }.collect := by
  obtain ⟨hi3, hf⟩ := h3
  have h0 : Inv0 { st3 with holds := st.holds } := holds_inv0 hi3.toInv0 fun s h => by
    refine hi3.holdLive s ?_
    rw [hf.holds]
    exact List.mem_cons_of_mem _ h
  obtain ⟨hc, hi'⟩ := collect_inv h0
  refine ⟨hc, hi', ?_⟩
  exact {
    env := by rw [hc.env]; exact hf.env
    holds := by rw [hc.holds]
    nObj := by rw [hc.nObj]; exact hf.nObj
    nStore := by rw [hc.nStore]; exact hf.nStore
    old := fun x hx hl => by
      obtain ⟨h1, h2⟩ := hc.obj x hl
      obtain ⟨h4, h5⟩ := hf.old x hx h1
      exact ⟨h4, by rw [h2]; exact h5⟩
    top := fun x hx hh => by
      have h1 := hf.top x hx hh
      refine hc.top x h1 ?_
      rw [← hh]
      exact (hf.old x (hi.objBound x hx) h1).2
    new := fun x hx hl => by
      obtain ⟨h1, h2⟩ := hc.obj x hl
      rw [h2]
      exact hf.new x hx h1
    kind := fun s hs hl => by
      obtain ⟨h1, h2⟩ := hc.store s
      obtain ⟨h4, h5⟩ := hf.kind s hs (h2 hl)
      exact ⟨h4, fun sl h => by rw [h1]; exact h5 sl h⟩
    stays := fun x hx hl => by
      obtain ⟨h1, h2⟩ := hc.obj x hl
      rw [h2]
      exact hf.stays x hx h1 }

theorem withHold_spec {st : St} (hi : Inv st) {a : Nat} (ha : st.liveS a) {m : M α} {B : Prop} {Q : α → St → Prop}
    (h : Tri { st with holds := a :: st.holds } m B (fun r st' => Safe { st with holds := a :: st.holds } st' ∧ Q r st')
      (Safe { st with holds := a :: st.holds })) :
    Tri st (withHold a m) B (fun r st' => Safe st st' ∧ ∃ st3, Q r st3 ∧ Collects { st3 with holds := st.holds } st') (Safe st) := by
  unfold Tri at h ⊢
  rw [withHold]
  cases hf : m { st with holds := a :: st.holds } with
  | ok r st3 =>
    rw [hf] at h
    obtain ⟨h1, h2⟩ := hold_close hi.toInv0 h.1
    exact ⟨h2, st3, h.2, h1⟩
  | thr e st3 =>
    rw [hf] at h
    exact (hold_close hi.toInv0 h).2
  | ub =>
    rw [hf] at h
    exact h

theorem hold_edge {st : St} {hs : List Nat} {a b : Nat} (h : Edge { st with holds := hs } a b) : Edge st a b := h

theorem hold_below {st : St} {hs : List Nat} {a b : Nat} (h : Below { st with holds := hs } a b) : Below st a b := h.mono fun _ _ => hold_edge

theorem hold_cyc {st : St} {hs : List Nat} (h : Cyc { st with holds := hs }) : Cyc st := by
  obtain ⟨a, b, h1, h2⟩ := h
  exact ⟨a, b, h1, hold_below h2⟩

theorem hold_bad {st : St} {hs : List Nat} {p : Nat} (h : BadProxy { st with holds := hs } p) : BadProxy st p := by
  obtain ⟨t, path, k, s, h1, h2, h3, h4⟩ := h
  exact ⟨t, path, k, s, h1, h2, h3, hold_below h4⟩

/-! ## Assignment -/

theorem Targets.bad {st st' : St} {x t p : Nat} (h : Targets st st' x t) (hi : Inv0 st) (hp : st.live p) (hh : (st.obj p).home = none) (hb : BadProxy st' p) : BadProxy st p := by
  by_cases e : p = x
  · subst e
    rcases h.is with ⟨_, h1⟩ | h1
    · rw [h1] at hb; exact hb
    · obtain ⟨_, _, _, _, h2, _⟩ := hb
      rw [h1] at h2; cases h2
  · exact h.turn.bk.bad hi hp (h.turn.others p e (h.turn.bk.top p hp hh)) hb

theorem Works.bad {st st' : St} {x t p : Nat} (h : Works st st' x t) (hi : Inv0 st) (hb : BadProxy st' x) (hp : st.live x) : BadProxy st x := by
  by_cases hx : IsProxy st x
  · rcases h.is with h1 | h1
    · subst h1
      obtain ⟨_, _, _, _, h2, _⟩ := hb
      have := h.value.2
      rw [h2] at this; cases this
    · obtain ⟨_, _, _, _, h2, _⟩ := hb
      rw [h1] at h2; cases h2
  · rw [h.same hx] at hb; exact hb

theorem assign_spec {st : St} (hi : Inv st) (hn : ¬ Cyc st) (grow : Nat → Nat → Nat) {x y : Nat} (hy : st.live y) (hyh : (st.obj y).home = none)
    (hx : st.live x) (hxh : (st.obj x).home = none ∨ (st.sl x).plain = true ∧ Value st y) :
    Tri st (assign grow y x) (BadProxy st y ∨ BadProxy st x ∨ IsProxy st x ∧ ScalarRef st y) (fun _ => Safe st) (Safe st) := by
  rw [assign]
  refine (target_spec hi hy fun _ => hyh).bind .inl (fun _ h => ⟨h.1, h.2.toFr⟩) ?_
  intro t st1 h1
  refine .after (run_plain h1.value.1 h1.value.2) ?_
  have hn1 : ¬ Cyc st1 := fun h => hn (h1.turn.bk.cyc hi.toInv0 h)
  have hi1 := h1.turn.inv
  have hx1 : st1.live x ∧ ((st1.sl x).plain = false → (st1.obj x).home = none) ∧ (BadProxy st1 x → BadProxy st x) ∧
      (IsProxy st1 x → IsProxy st x ∧ x ≠ y) := by
    have hprox : st1.live x → IsProxy st1 x → IsProxy st x ∧ x ≠ y := by
      rintro hl ⟨t', p', k', h2⟩
      have hne : x ≠ y := by
        rintro rfl
        rcases h1.is with ⟨h3, h4⟩ | h3
        · subst h3; have := h1.value.2; rw [h2] at this; cases this
        · rw [h3] at h2; cases h2
      exact ⟨⟨t', p', k', by rw [← h1.turn.others x hne hl]; exact h2⟩, hne⟩
    rcases hxh with h | ⟨h2, h3⟩
    · have hl := h1.turn.bk.top x hx h
      exact ⟨hl, fun _ => by rw [(h1.turn.bk.old x (hi.objBound x hx) hl).2]; exact h, h1.bad hi.toInv0 hx h, hprox hl⟩
    · have : st1 = st := by
        rcases h1.is with ⟨_, h4⟩ | h4
        · exact h4
        · have h5 := h1.plain h3.2
          subst h5
          have := h1.value.2
          rw [h4] at this; cases this
      subst this
      exact ⟨hx, (fun h => by rw [h2] at h; cases h), id, hprox hx⟩
  cases hs : (st1.sl t).sto with
  | some a =>
    simp only
    have ha := hi1.stoLive t a h1.value.1 hs
    have hih := hold_inv hi1 ha
    refine (withHold_spec hi1 ha (Q := fun _ _ => True) (B := BadProxy st1 x) ?_).mono (fun h => .inr (.inl (hx1.2.2.1 h))) (fun _ st' h => ⟨h.1.1, h1.turn.bk.toFr.trans h.1.2 hi.toInv0⟩) (fun _ h => ⟨h.1, h1.turn.bk.toFr.trans h.2 hi.toInv0⟩)
    refine (targetCreate_spec hih (fun h => hn1 (hold_cyc h)) grow (x := x) hx1.1 hx1.2.1).bind hold_bad (fun _ h => h.1) ?_
    intro d st2 h2
    have hgood : Good st2 (st1.sl t) := by
      refine ⟨h1.value.2, fun b hb => ?_⟩
      rw [hs] at hb; cases hb
      have hl : st2.liveS a := h2.inv.holdLive a (by rw [h2.bk.holds]; exact List.mem_cons_self)
      exact ⟨hl, (h2.bk.kind a (hi1.storeBound a ha) hl).2 _ (hi1.fits t a h1.value.1 hs)⟩
    rcases setSlot_spec h2.inv h2.value hgood with ⟨_, h3⟩ | ⟨st3, h3, h4⟩
    · exact absurd (hold_cyc (h2.bk.cyc hih.toInv0 h3)) hn1
    · exact .ok h3 ⟨⟨h4.inv, h2.bk.toFr.trans h4.fr hih.toInv0⟩, trivial⟩
  | none =>
    simp only
    refine (targetCreate_spec hi1 hn1 grow hx1.1 hx1.2.1).bind (fun h => .inr (.inl (hx1.2.2.1 h))) (fun _ h => ⟨h.1.1, h1.turn.bk.toFr.trans h.1.2 hi.toInv0⟩) ?_
    intro d st2 h2
    by_cases hl : st2.live t
    · have hpl := (h2.plains t h1.value hl).2
      refine .after (run_plain hl hpl) ?_
      rcases setSlot_spec h2.inv (new := st1.sl t) h2.value ⟨h1.value.2, fun b hb => by rw [hs] at hb; cases hb⟩ with ⟨_, h3⟩ | ⟨st3, h3, h4⟩
      · exact absurd (h2.bk.cyc hi1.toInv0 h3) hn1
      · exact .ok h3 ⟨h4.inv, (h1.turn.bk.toFr.trans h2.bk.toFr hi.toInv0).trans h4.fr hi.toInv0⟩
    · refine .ub (bind_ub (run_plain_dead hl)) (.inr (.inr ?_))
      have hp : IsProxy st1 x := Classical.byContradiction fun h => hl (by rw [h2.same h]; exact h1.value.1)
      obtain ⟨h3, h4⟩ := hx1.2.2.2 hp
      refine ⟨h3, ?_⟩
      rcases h1.is with ⟨h5, h6⟩ | h5
      · rw [h5] at hl
        exact absurd (h2.bk.top y (by rw [h6]; exact hy) (by rw [h6]; exact hyh)) hl
      · by_cases hpy : IsProxy st y
        · exact .inl hpy
        · have := h1.same hpy
          rw [this] at h5 hs
          exact .inr ⟨t, h5, hs⟩

/-- `y` was copied into the local variable `d`. -/
structure Copies (st st' : St) (y d : Nat) : Prop where
  inv : Inv st'
  bk : Bk st st'
  value : Value st' d
  home : (st'.obj d).home = none
  unref : Unref st' d
  quiet : ∀ z, st.live z → (st.obj z).home = none → z ≠ y → z ≠ d → Unref st z → st'.obj z = st.obj z ∧ Unref st' z
  bad : ∀ p, st.live p → (st.obj p).home = none → BadProxy st' p → BadProxy st p

theorem assign_temp {st : St} (hi : Inv st) (grow : Nat → Nat → Nat) {y d : Nat} (hd : Fresh st d) (hy : st.live y) (hyh : (st.obj y).home = none) (hyd : y ≠ d) :
    Tri st (assign grow y d) (BadProxy st y) (fun _ st' => Copies st st' y d) (Safe st) := by
  rw [assign]
  refine (target_spec hi hy fun _ => hyh).bind id (fun _ h => ⟨h.1, h.2.toFr⟩) ?_
  intro t st1 h1
  refine .after (run_plain h1.value.1 h1.value.2) ?_
  have hi1 := h1.turn.inv
  obtain ⟨h2, h3⟩ := h1.quiet d hd.live hd.home (Ne.symm hyd) hd.unref
  have hd1 := hd.keep h2 h3
  have hgood := h1.value.good hi1.toInv0
  obtain ⟨h4, h5⟩ := setSlot_null hi1 hd1.value (by rw [hd1.null]; rfl) hgood
  have hfr : Fr st1 (st1.setSlot d (st1.sl t)) :=
    fr_collect hi1.toInv0 (Collects.refl h5.toInv0) (setSlot_live _ _ _) (setSlot_home _ _ _) rfl rfl rfl (Nat.le_refl _) (fun _ _ => rfl)
      (evolve_setSlot (.write hd1.value.2 hgood.1))
  have hbk : Bk st1 (st1.setSlot d (st1.sl t)) :=
    ⟨hfr, fun a b h => .inl (edge_setSlot hi1.toInv0 hd1.live h (by rw [hd1.home]; simp))⟩
  have hobj : ∀ z, z ≠ d → (st1.setSlot d (st1.sl t)).obj z = st1.obj z := fun z hz => by simp [St.setSlot, St.setObj, hz]
  have hun : ∀ z, Unref st1 z → Unref (st1.setSlot d (st1.sl t)) z := by
    intro z hz r hr
    rw [setSlot_sl]
    by_cases e : r = d
    · rw [if_pos e, plain_tgt hgood.1]; simp
    · rw [if_neg e]; exact hz r ((setSlot_live ..).1 hr)
  have hfin : Copies st (st1.setSlot d (st1.sl t)) y d := by
    refine ⟨h5, h1.turn.bk.trans hbk hi.toInv0, ⟨(setSlot_live ..).2 hd1.live, by rw [setSlot_sl, if_pos rfl]; exact hgood.1⟩,
      by rw [setSlot_home]; exact hd1.home, hun d h3, ?_, ?_⟩
    · intro z h6 h7 h8 h9 h10
      obtain ⟨h11, h12⟩ := h1.quiet z h6 h7 h8 h10
      exact ⟨by rw [hobj z h9, h11], hun z h12⟩
    · intro p h6 h7 h8
      refine h1.bad hi.toInv0 h6 h7 (hbk.bad hi1.toInv0 (h1.turn.bk.top p h6 h7) ?_ h8)
      have e : p ≠ d := by
        rintro rfl
        obtain ⟨_, _, _, _, h9, _⟩ := h8
        rw [setSlot_sl, if_pos rfl] at h9
        have := hgood.1
        rw [h9] at this; cases this
      rw [setSlot_sl, if_neg e]
  cases hs : (st1.sl t).sto with
  | none =>
    simp only
    refine .after (targetCreate_plain hd1.value grow) ?_
    refine .after (run_plain h1.value.1 h1.value.2) (.ok h4 hfin)
  | some a =>
    simp only
    have hih := hold_inv hi1 (hi1.stoLive t a h1.value.1 hs)
    have hdv : Value { st1 with holds := a :: st1.holds } d := hd1.value
    obtain ⟨h6, _⟩ := setSlot_null hih hdv (new := st1.sl t) (by show (st1.sl d).sto = none; rw [hd1.null]; rfl) hgood
    refine .ok (a := ()) (st' := st1.setSlot d (st1.sl t)) ?_ hfin
    rw [withHold, bind_ok (targetCreate_plain hdv grow), h6]
    show Res.ok () (St.collect (st1.setSlot d (st1.sl t))) = _
    rw [collect_id h5]

end Verif.Ref
