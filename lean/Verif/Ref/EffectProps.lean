import Verif.Ref.RefersProps
/-!
# What operations on references and their targets do (C94)
-/

namespace Verif.Ref
open Verif

/-! ## The target is gone -/

/-- What the other parameters of a call must be: the variable that is declared is new, the one that is reassigned is a
reference, and the others exist; what is copied before the call looks at `x` is not gone itself. -/
def Call.Ready (st : St) : Call → Prop
  | .assign y => ∃ u, Names st y u ∧ st.live u
  | .assignTo y => ∃ o, st.env y = some o
  | .mkRef r => st.env r = none
  | .mkProxy r _ => st.env r = none
  | .at r _ => st.env r = none
  | .atPath r _ => st.env r = none
  | .atPathDef r _ y => st.env r = none ∧ ∃ u, Names st y u ∧ st.live u
  | .atPathOr r y _ => st.env r = none ∧ ∃ o, st.env y = some o
  | .reassign r => ∃ q, st.env r = some q ∧ (st.sl q).plain = false
  | .set _ y => ∃ u, Names st y u ∧ st.live u
  | .setIn y _ => ∃ o, st.env y = some o
  | .append y => ∃ u, Names st y u ∧ st.live u
  | .appendTo y => ∃ o, st.env y = some o
  | _ => True

/-- A value is copied into a local variable. -/
theorem copy_ok {st : St} (hi : Inv st) (grow : Nat → Nat → Nat) {o u d : Nat} (ho : About st o u) (hu : st.live u) (hup : (st.sl u).plain = true) (hd : Value st d) (hdn : st.sl d = .null) :
    assign grow o d st = .ok () (st.setSlot d (st.sl u)) ∧ Inv (st.setSlot d (st.sl u)) := by
  have hv : Value st u := ⟨hu, hup⟩
  have hgood := hv.good hi.toInv0
  obtain ⟨h4, h5⟩ := setSlot_null hi hd (by rw [hdn]; rfl) hgood
  refine ⟨?_, h5⟩
  have ht : target o st = .ok u st := by rw [ho.target hi.toInv0, if_pos hu]
  rw [assign, bind_ok ht, bind_ok (run_plain hv.1 hv.2)]
  cases hs : (st.sl u).sto with
  | none =>
    simp only
    rw [bind_ok (targetCreate_plain hd grow), bind_ok (run_plain hv.1 hv.2)]; exact h4
  | some a =>
    simp only
    have hih := hold_inv hi (hi.stoLive u a hv.1 hs)
    have hdv : Value { st with holds := a :: st.holds } d := hd
    obtain ⟨h6, _⟩ := setSlot_null hih hdv (new := st.sl u) (by show (st.sl d).sto = none; rw [hdn]; rfl) hgood
    rw [withHold, bind_ok (targetCreate_plain hdv grow), h6]
    show Res.ok () (St.collect (st.setSlot d (st.sl u))) = _
    rw [collect_id h5]

theorem Names.plain {st : St} (hi : Inv0 st) {v t : Nat} (h : Names st v t) (hl : st.live t) : (st.sl t).plain = true := by
  obtain ⟨o, h1, ⟨h2, _⟩ | h2⟩ := h
  · exact h2
  · obtain ⟨k, _, _, h3⟩ := hi.refRd o t (hi.env v o h1).1 (by rw [h2]; rfl)
    exact (h3 hl).1

/-- **C94.** Every use of a reference whose target is gone throws, except that it can be asked whether its target exists,
destroyed and made to refer to something else. -/
theorem invalid_throws {grow : Nat → Nat → Nat} {st : St} (h : Runs grow st) {v t : Nat} (hv : Names st v t) (hd : ¬ st.live t) (c : Call)
    (hc : c ≠ .exists) (hr : c.Ready st) : ∃ st', step grow (c.op v) st = .thr .invalidReference st' := by
  have hi := (runs_ok h).inv
  obtain ⟨o, hvo, hx⟩ := id hv
  have ha := hv.about hi.toInv0 hvo
  have hq : ∃ q, st.live q ∧ (st.obj q).home = none ∧ st.sl q = .ref t := by
    rcases hx with ⟨_, hx⟩ | hx
    · rw [hx] at ha; exact absurd ha.1 hd
    · exact ⟨o, ha.1, ha.2.1, hx⟩
  have hb : Both st o o t := ⟨ha, ha, hq⟩
  have htb : t < st.nObj := by
    obtain ⟨q, h1, _, h2⟩ := hq
    exact hi.tgtBound q t h1 (by rw [h2]; rfl)
  have hvf : ∀ f : Nat → M View, var v f st = f o st := fun f => by rw [var, hvo]
  have htar : target o st = .thr .invalidReference st := by rw [ha.target hi.toInv0, if_neg hd]
  have htc : targetCreate grow o st = .thr .invalidReference st := by rw [ha.targetCreate hi.toInv0, if_neg hd]
  have has : ∀ x, assign grow o x st = .thr .invalidReference st := fun x => by rw [assign, bind_thr htar]
  have hdecl : ∀ {r : Nat} {f : Nat → M Unit}, st.env r = none → (∃ st3, f st.nObj (st.new none [.null]) = .thr .invalidReference st3) →
      ∃ st', declare r f st = .thr .invalidReference st' := by
    rintro r f h1 ⟨st3, h2⟩
    exact ⟨(st3.kill [st.nObj]).collect, by rw [declare, h1]; simp only [h2]⟩
  have htemp : ∀ {α : Type} {st : St} {f : Nat → M α}, (∃ st3, f st.nObj (st.new none [.null]) = .thr .invalidReference st3) →
      ∃ st', withTemp f st = .thr .invalidReference st' := by
    rintro α st f ⟨st3, h2⟩
    exact ⟨(st3.kill [st.nObj]).collect, by simp only [withTemp, h2]⟩
  have hT := temp_temp hi
  generalize hst1 : st.new none [.null] = st1 at hT
  rw [hst1] at hdecl
  have hi1 := hT.inv.toInv0
  have hb1 := hb.temp hi.toInv0 hT
  have hd1 : ¬ st1.live t := by rw [St.live, hT.obj t (by omega)]; exact hd
  have hcopy : ∀ {y q u : Nat}, st.env y = some q → Names st y u → st.live u →
      ∃ st2, assign grow q st.nObj st1 = .ok () st2 ∧ Inv st2 ∧ Both st2 o o t ∧ ¬ st2.live t := by
    intro y q u hy hn hl
    have hlt := hi.objBound u hl
    have hp := hn.plain hi.toInv0 hl
    have he := hT.obj u (by omega)
    have hqa := hn.about hi.toInv0 hy
    have hqa1 : About st1 q u := by
      have e := hT.obj q (by have := hi.objBound q hqa.1; omega)
      rw [About, St.live, St.sl, St.sl, e, he]; exact hqa
    obtain ⟨h1, h2⟩ := copy_ok hT.inv grow hqa1 (by rw [St.live, he]; exact hl) (by rw [St.sl, he]; exact hp) hT.fresh.value hT.fresh.null
    have h3 := assign_temp hT.inv grow hT.fresh hqa1.1 hqa1.2.1 (by have := hi.objBound q hqa.1; omega)
    rw [Tri, h1] at h3
    exact ⟨_, h1, h2, hb1.fr hi1 h3.bk.toFr, fun hh => hd1 ((setSlot_live ..).1 hh)⟩
  cases c with
  | put l => exact ⟨st, by simp only [Call.op, step, hvf]; rw [bind_thr htc]⟩
  | assign y =>
    obtain ⟨u, h1, h2⟩ := hr
    obtain ⟨q, h3, _⟩ := id h1
    refine ⟨st, ?_⟩
    have hqa := h1.about hi.toInv0 h3
    have ht : target q st = .ok u st := by rw [hqa.target hi.toInv0, if_pos h2]
    have hy : ∀ f : Nat → M View, var y f st = f q st := fun f => by rw [var, h3]
    simp only [Call.op, step, hvf, hy]
    refine bind_thr ?_
    have hp := h1.plain hi.toInv0 h2
    rw [assign, bind_ok ht, bind_ok (run_plain h2 hp)]
    cases hs : (st.sl u).sto with
    | none => simp only; rw [bind_thr htc]
    | some a =>
      simp only
      have ha2 : About { st with holds := a :: st.holds } o t := ha
      have hih := hold_inv hi (hi.stoLive u a h2 hs)
      rw [withHold, bind_thr (by rw [ha2.targetCreate hih.toInv0, if_neg hd])]
      show Res.thr _ (St.collect st) = _
      rw [collect_id hi]
  | assignTo y =>
    obtain ⟨q, hq⟩ := hr
    have hy : ∀ f : Nat → M View, var y f st = f q st := fun f => by rw [var, hq]
    exact ⟨st, by simp only [Call.op, step, hy, hvf]; rw [bind_thr (has q)]⟩
  | mkRef r =>
    simp only [Call.op, step, hvf]
    exact hdecl hr ⟨st1, by rw [hb1.1.makeRef hi1, if_neg hd1]⟩
  | mkProxy r p =>
    simp only [Call.op, step, hvf]
    exact hdecl hr ⟨st1, by rw [hb1.1.makeProxy hi1, if_neg hd1]⟩
  | «at» r e =>
    simp only [Call.op, step, hvf]
    exact hdecl hr ⟨st1, by rw [hb1.1.refAt hi1, bind_thr (by rw [hb1.1.target hi1, if_neg hd1])]⟩
  | atPath r p =>
    simp only [Call.op, step, hvf]
    refine hdecl hr ⟨st1, ?_⟩
    by_cases hp : p = []
    · rw [hp, refAtPath, if_pos rfl, hb1.1.makeRef hi1, if_neg hd1]
    · rw [hb1.1.refAtPath hi1 hp, bind_thr (by rw [hb1.1.target hi1, if_neg hd1])]
  | atPathDef r p y =>
    obtain ⟨h0, u, h1, h2⟩ := hr
    obtain ⟨q, h3, _⟩ := id h1
    have hy : ∀ f : Nat → M View, var y f st = f q st := fun f => by rw [var, h3]
    simp only [Call.op, step, hvf, hy]
    refine hdecl h0 (htemp ?_)
    have hT2 := temp_temp hT.inv
    generalize st1.new none [.null] = st2 at hT2
    have hlt := hi.objBound u h2
    have hp := h1.plain hi.toInv0 h2
    have hn1 := hT.nObj
    have he := hT.obj u (by omega)
    have he2 := hT2.obj u (by omega)
    have hqa := h1.about hi.toInv0 h3
    have hqb := hi.objBound q hqa.1
    have hqa2 : About st2 q u := by
      have e := hT.obj q (by omega)
      have e2 := hT2.obj q (by omega)
      rw [About, St.live, St.sl, St.sl, e2, he2, e, he]; exact hqa
    obtain ⟨h4, h5⟩ := copy_ok hT2.inv grow hqa2 (by rw [St.live, he2, he]; exact h2) (by rw [St.sl, he2, he]; exact hp) hT2.fresh.value hT2.fresh.null
    have h6 := assign_temp hT2.inv grow hT2.fresh hqa2.1 hqa2.2.1 (by omega)
    rw [Tri, h4] at h6
    have hb3 := (hb1.temp hi1 hT2).fr hT2.inv.toInv0 h6.bk.toFr
    have hd3 : ¬ (st2.setSlot st1.nObj (st2.sl u)).live t := by
      rw [setSlot_live, St.live, hT2.obj t (by omega)]; exact hd1
    refine ⟨st2.setSlot st1.nObj (st2.sl u), ?_⟩
    rw [bind_ok h4]
    by_cases hp : p = []
    · rw [hp, refAtPathDef, if_pos rfl, hb3.1.makeRef h5.toInv0, if_neg hd3]
    · rw [refAtPathDef, if_neg hp, bind_thr (by rw [hb3.1.targetCreate h5.toInv0, if_neg hd3])]
  | atPathOr r y p =>
    obtain ⟨h0, q, h1⟩ := hr
    have hy : ∀ f : Nat → M View, var y f st = f q st := fun f => by rw [var, h1]
    simp only [Call.op, step, hy, hvf]
    refine hdecl h0 (htemp ?_)
    have hT2 := temp_temp hT.inv
    generalize st1.new none [.null] = st2 at hT2
    have hb2 := hb1.temp hi1 hT2
    have hn1 := hT.nObj
    have hd2 : ¬ st2.live t := by rw [St.live, hT2.obj t (by omega)]; exact hd1
    exact ⟨st2, by rw [assign, bind_thr (bind_thr (by rw [hb2.1.target hT2.inv.toInv0, if_neg hd2]))]⟩
  | reassign r =>
    obtain ⟨q, h1, h2⟩ := hr
    have hy : ∀ f : Nat → M View, var r f st = f q st := fun f => by rw [var, h1]
    refine ⟨st, ?_⟩
    simp only [Call.op, step, hy, hvf]
    rw [bind_ok (run_deref (hi.env r q h1).1), if_neg (by rw [h2]; simp)]
    refine bind_thr ?_
    rw [ha.makeRef hi.toInv0, if_neg hd]
  | set e y =>
    obtain ⟨u, h1, h2⟩ := hr
    obtain ⟨q, h3, _⟩ := id h1
    have hy : ∀ f : Nat → M View, var y f st = f q st := fun f => by rw [var, h3]
    simp only [Call.op, step, hvf, hy]
    refine htemp ?_
    rw [hst1]
    obtain ⟨st2, h4, h5, h6, h7⟩ := hcopy h3 h1 h2
    exact ⟨st2, by rw [bind_ok h4, bind_thr (by rw [h6.1.targetCreate h5.toInv0, if_neg h7])]⟩
  | setIn y e =>
    obtain ⟨q, hq⟩ := hr
    have hy : ∀ f : Nat → M View, var y f st = f q st := fun f => by rw [var, hq]
    simp only [Call.op, step, hy, hvf]
    refine htemp ?_
    rw [hst1]
    exact ⟨st1, by rw [assign, bind_thr (bind_thr (by rw [hb1.1.target hi1, if_neg hd1]))]⟩
  | append y =>
    obtain ⟨u, h1, h2⟩ := hr
    obtain ⟨q, h3, _⟩ := id h1
    have hy : ∀ f : Nat → M View, var y f st = f q st := fun f => by rw [var, h3]
    simp only [Call.op, step, hvf, hy]
    refine htemp ?_
    rw [hst1]
    obtain ⟨st2, h4, h5, h6, h7⟩ := hcopy h3 h1 h2
    exact ⟨st2, by rw [bind_ok h4, bind_thr (by rw [h6.1.targetCreate h5.toInv0, if_neg h7])]⟩
  | appendTo y =>
    obtain ⟨q, hq⟩ := hr
    have hy : ∀ f : Nat → M View, var y f st = f q st := fun f => by rw [var, hq]
    simp only [Call.op, step, hy, hvf]
    refine htemp ?_
    rw [hst1]
    exact ⟨st1, by rw [assign, bind_thr (bind_thr (by rw [hb1.1.target hi1, if_neg hd1]))]⟩
  | erase e => exact ⟨st, by simp only [Call.op, step, hvf]; rw [bind_thr htar]⟩
  | clear => exact ⟨st, by simp only [Call.op, step, hvf]; rw [bind_thr htar]⟩
  | look => exact ⟨st, by simp only [Call.op, step, hvf]; rw [bind_thr htar]⟩
  | «exists» => exact absurd rfl hc

/-! ## Writing and reading -/

/-- What is seen of a literal. -/
def Lit.view : Lit → View
  | .null => .null
  | .sca c => .sca c
  | .str b => .str b
  | .list => .list 0
  | .map => .map []
  | .blob b => .blob b

theorem path_write {st st' : St} {d : Nat} (hi : Inv0 st) (hi' : Inv0 st') (hn : ¬ Cyc st) (hl : ∀ y, st'.live y → y ≠ d → st'.sl y = st.sl y)
    (hc : ∀ s, st.liveS s → (st'.store s).cell = (st.store s).cell) : ∀ (q : VPath) {a : Nat}, Value st a → st'.live a → path? st a q = some d → path? st' a q = some d
  | [], _, _, _, h => h
  | e :: q, a, ha, hla, h => by
    rw [path?, Option.bind_eq_some_iff] at h
    obtain ⟨y, h1, h2⟩ := h
    obtain ⟨s, h3, h4⟩ := elem_mem hi ha h1
    have hs := hi.stoLive a s ha.1 h3
    have hy := elem_value hi ha h3 h4
    have had : a ≠ d := by
      rintro rfl
      exact Reach.outside hi hn h3 hs (path_reach hi q hy h2) hy h4
    have hsl := hl a hla had
    rw [path?, elem_congr (st := st) hsl (fun b hb => hc b (hi.stoLive a b ha.1 hb)), h1]
    have h5 : y ∈ st'.el s := by rw [St.el, hc s hs]; exact h4
    exact path_write hi hi' hn hl hc q hy (hi'.elems s y (hi'.stoLive a s hla (by rw [hsl]; exact h3)) h5).1 h2

theorem assignLit_sees {st : St} (hi : Inv st) (hn : ¬ Cyc st) {d : Nat} (hd : Value st d) (l : Lit) :
    ∃ st', assignLit d l st = .ok () st' ∧ Inv st' ∧ Fr st st' ∧ Value st' d ∧ seen st' d = l.view ∧
      ∀ q a, Value st a → st'.live a → path? st a q = some d → path? st' a q = some d := by
  have hset : ∀ s : Slot, s.plain = true → s.sto = none → ∃ st', setSlot d s st = .ok () st' ∧ Inv st' ∧ Fr st st' ∧ Value st' d ∧ st'.sl d = s ∧
      ∀ q a, Value st a → st'.live a → path? st a q = some d → path? st' a q = some d := by
    intro s h1 h2
    rcases setSlot_spec hi hd (new := s) ⟨h1, fun a h => by rw [h2] at h; cases h⟩ with ⟨_, h⟩ | ⟨st', h3, h4⟩
    · exact absurd h hn
    · exact ⟨st', h3, h4.inv, h4.fr, ⟨h4.live, by rw [h4.sl]; exact h1⟩, h4.sl, fun q a => path_write hi.toInv0 h4.inv.toInv0 hn
        (fun y h5 h6 => by rw [St.sl, (h4.col.obj y h5).2, ← St.sl, setSlot_sl, if_neg h6]) (fun s _ => by rw [(h4.col.store s).1]; rfl) q⟩
  have hinit : ∀ (mk : Nat → Slot) (c : Cell), c.elems = [] → CellOk c → (∀ s, (mk s).plain = true ∧ (mk s).sto = some s ∧ Fits (mk s) c) →
      ∃ st' s, initSlot d mk c st = .ok () st' ∧ Inv st' ∧ Fr st st' ∧ Value st' d ∧ st'.sl d = mk s ∧ (st'.store s).cell = c ∧
      ∀ q a, Value st a → st'.live a → path? st a q = some d → path? st' a q = some d := by
    intro mk c h1 h2 h3
    rcases initSlot_spec hi hd h1 h2 h3 with ⟨_, h⟩ | ⟨st', h4, h5⟩
    · exact absurd h hn
    · exact ⟨st', _, h4, h5.inv, h5.bk.toFr, ⟨h5.live, by rw [h5.sl]; exact (h3 _).1⟩, h5.sl, h5.cell, fun q a => path_write hi.toInv0 h5.inv.toInv0 hn
        (fun y h6 h7 => by rw [St.sl, (h5.col.obj y h6).2, ← St.sl, setSlot_sl, if_neg h7]; rfl)
        (fun s h6 => by rw [(h5.col.store s).1]; exact congrArg _ (newStore_store st c (Nat.ne_of_lt (hi.storeBound s h6)))) q⟩
  cases l with
  | null =>
    obtain ⟨st', h1, h2, h3, h4, h5, hp⟩ := hset .null rfl rfl
    exact ⟨st', h1, h2, h3, h4, by simp [seen, h5, Lit.view], hp⟩
  | sca c =>
    obtain ⟨st', h1, h2, h3, h4, h5, hp⟩ := hset (.sca c) rfl rfl
    exact ⟨st', h1, h2, h3, h4, by simp [seen, h5, Lit.view], hp⟩
  | str b =>
    obtain ⟨st', s, h1, h2, h3, h4, h5, h6, hp⟩ := hinit .str (.str b) rfl trivial fun s => ⟨rfl, rfl, trivial⟩
    exact ⟨st', h1, h2, h3, h4, by simp [seen, h5, h6, Lit.view], hp⟩
  | list =>
    obtain ⟨st', s, h1, h2, h3, h4, h5, h6, hp⟩ := hinit .list (.list 0 []) rfl trivial fun s => ⟨rfl, rfl, trivial⟩
    exact ⟨st', h1, h2, h3, h4, by simp [seen, h5, h6, Lit.view], hp⟩
  | map =>
    obtain ⟨st', s, h1, h2, h3, h4, h5, h6, hp⟩ := hinit .map (.map []) rfl (by simp [CellOk, AMap.Sorted]) fun s => ⟨rfl, rfl, trivial⟩
    exact ⟨st', h1, h2, h3, h4, by simp [seen, h5, h6, Lit.view], hp⟩
  | blob b =>
    obtain ⟨st', s, h1, h2, h3, h4, h5, h6, hp⟩ := hinit .blob (.blob b) rfl trivial fun s => ⟨rfl, rfl, trivial⟩
    exact ⟨st', h1, h2, h3, h4, by simp [seen, h5, h6, Lit.view], hp⟩

/-- Reading. -/
theorem look_eq {st : St} (hi : Inv0 st) (grow : Nat → Nat → Nat) {v t : Nat} (hv : Names st v t) (hl : st.live t) : step grow (.look v) st = .ok (seen st t) st := by
  obtain ⟨o, hvo, _⟩ := id hv
  have ha := hv.about hi hvo
  rw [step, var, hvo]
  simp only
  rw [bind_ok (by rw [ha.target hi, if_pos hl]), view_spec hi ⟨hl, hv.plain hi hl⟩]

/-- Names stay when the object does. -/
theorem Names.fr {st st' : St} (hi : Inv0 st) (hi' : Inv0 st') (hf : Fr st st') {v t : Nat} (h : Names st v t) (ht : st'.live t) (htp : (st'.sl t).plain = true) : Names st' v t := by
  obtain ⟨o, h1, h2⟩ := h
  refine ⟨o, by rw [hf.env]; exact h1, ?_⟩
  rcases h2 with ⟨_, h2⟩ | h2
  · exact .inl ⟨htp, h2⟩
  · obtain ⟨h3, h4⟩ := hi.env v o h1
    exact .inr ((hf.stays o h3 (hf.top o h3 h4)).ref t h2)

/-- **C94.** After a text, number, blob, … was assigned through a variable or a reference, it is what is read through the
variable and through all references to it. -/
theorem put_look {grow : Nat → Nat → Nat} {st : St} (h : Runs grow st) (hn : ¬ Cyc st) {v t : Nat} (hv : Names st v t) (hl : st.live t) (l : Lit) :
    ∃ st', step grow (.put v l) st = .ok .unit st' ∧ ∀ w, Names st w t → step grow (.look w) st' = .ok l.view st' := by
  have hi := (runs_ok h).inv
  obtain ⟨o, hvo, _⟩ := id hv
  have ha := hv.about hi.toInv0 hvo
  have hp := hv.plain hi.toInv0 hl
  obtain ⟨st', h1, h2, h3, h4, h5, _⟩ := assignLit_sees hi hn ⟨hl, hp⟩ l
  refine ⟨st', ?_, fun w hw => ?_⟩
  · rw [step, var, hvo]
    simp only
    rw [bind_ok (by rw [ha.targetCreate hi.toInv0, if_pos hl]), bind_ok h1]; rfl
  · rw [look_eq h2.toInv0 grow (hw.fr hi.toInv0 h2.toInv0 h3 h4.1 h4.2) h4.1, h5]

/-- **C94.** After `x = y` the same is read through `x`, and through all references to it, as was read through `y` before;
containers are shared: both have the same elements. -/
theorem assign_look {grow : Nat → Nat → Nat} {st : St} (h : Runs grow st) (hn : ¬ Cyc st) {x y t u : Nat} (hx : Names st x t) (ht : st.live t)
    (hy : Names st y u) (hu : st.live u) :
    ∃ st' V, step grow (.look y) st = .ok V st ∧ step grow (.assign x y) st = .ok .unit st' ∧
      (∀ w, Names st w t → step grow (.look w) st' = .ok V st') ∧ ∀ e, elem? st' t e = elem? st u e := by
  have hi := (runs_ok h).inv
  obtain ⟨o, hxo, _⟩ := id hx
  obtain ⟨q, hyq, _⟩ := id hy
  have ha := hx.about hi.toInv0 hxo
  have hb := hy.about hi.toInv0 hyq
  have hp := hx.plain hi.toInv0 ht
  have hq := hy.plain hi.toInv0 hu
  have hvu : Value st u := ⟨hu, hq⟩
  have hgood := hvu.good hi.toInv0
  obtain ⟨st', h1, h2, h3, h4, h5⟩ : ∃ st', assign grow q o st = .ok () st' ∧ Inv st' ∧ Fr st st' ∧ (st'.live t ∧ st'.sl t = st.sl u) ∧
      ∀ s, (st'.store s).cell = (st.store s).cell := by
    have htar : target q st = .ok u st := by rw [hb.target hi.toInv0, if_pos hu]
    rw [assign, bind_ok htar, bind_ok (run_plain hu hq)]
    cases hs : (st.sl u).sto with
    | none =>
      simp only
      rw [bind_ok (by rw [ha.targetCreate hi.toInv0, if_pos ht]), bind_ok (run_plain hu hq)]
      rcases setSlot_spec hi ⟨ht, hp⟩ hgood with ⟨_, h⟩ | ⟨st', h1, h2⟩
      · exact absurd h hn
      · exact ⟨st', h1, h2.inv, h2.fr, ⟨h2.live, h2.sl⟩, fun s => by rw [(h2.col.store s).1]; rfl⟩
    | some a =>
      simp only
      have hsl := hi.stoLive u a hu hs
      have hih := hold_inv hi hsl
      have ha2 : About { st with holds := a :: st.holds } o t := ha
      rcases setSlot_spec hih (x := t) (new := st.sl u) ⟨ht, hp⟩ hgood with ⟨_, h⟩ | ⟨st2, h1, h2⟩
      · exact absurd (hold_cyc h) hn
      · obtain ⟨h3, h4⟩ := hold_close hi.toInv0 (a := a) ⟨h2.inv, h2.fr⟩
        have hfin : ∀ z, st2.live z → (z = t) → { st2 with holds := st.holds }.collect.live z := by
          rintro z hz rfl
          refine Decidable.byContradiction fun hd => ?_
          have h0 : Inv0 { st2 with holds := st.holds } := holds_inv0 h2.inv.toInv0 fun s hs => h2.inv.holdLive s (by
            rw [h2.fr.holds]; exact List.mem_cons_of_mem _ hs)
          obtain ⟨hm, g1, g, g2, g3, g4⟩ := h3.deadObj h0 hz hd
          have : Owned st2 g := h2.inv.owned g g2
          rcases this with k | ⟨w, k1, k2⟩
          · rw [h2.fr.holds] at k
            rcases List.mem_cons.1 k with k | k
            · refine g3 (.inr ⟨z, h2.live, ?_⟩)
              show (st2.sl z).sto = _
              rw [h2.sl, hs, k]
            · exact g3 (.inl k)
          · exact g3 (.inr ⟨w, k1, k2⟩)
        refine ⟨{ st2 with holds := st.holds }.collect, ?_, h4.1, h4.2, ⟨hfin t h2.live rfl, ?_⟩, fun s => ?_⟩
        · rw [withHold, bind_ok (by rw [ha2.targetCreate hih.toInv0, if_pos ht]), h1]
        · rw [St.sl, (h3.obj t (hfin t h2.live rfl)).2]; exact h2.sl
        · rw [(h3.store s).1]
          show (st2.store s).cell = _
          rw [(h2.col.store s).1]; rfl
  have hvt : Value st' t := ⟨h4.1, by rw [h4.2]; exact hq⟩
  have hseen : seen st' t = seen st u := by
    unfold seen
    rw [h4.2]
    simp only [h5]
  refine ⟨st', seen st u, look_eq hi.toInv0 grow hy hu, ?_, fun w hw => ?_, fun e => ?_⟩
  · rw [step, var, hxo]
    simp only
    rw [var, hyq]
    simp only
    rw [bind_ok h1]; rfl
  · rw [look_eq h2.toInv0 grow (hw.fr hi.toInv0 h2.toInv0 h3 hvt.1 hvt.2) hvt.1, hseen]
  · unfold elem?
    rw [h4.2]
    simp only [h5]

/-! ## Containers that grow -/

theorem Temp.about {st st1 : St} {d o t : Nat} (hi : Inv0 st) (hT : Temp st st1 d) (h : About st o t) (ht : st.live t) : About st1 o t := by
  obtain ⟨_, h2, _⟩ := hT.live hi h.1
  obtain ⟨_, h3, _⟩ := hT.live hi ht
  rw [About, St.live, St.sl, St.sl, h2, h3]; exact h

/-- **C94.** `Append` adds a copy at the end.  While the vector has room, all references stay valid.  When it has none, its
elements are moved and the references to them, and only these, become invalid. -/
theorem append_refs {grow : Nat → Nat → Nat} {st : St} (h : Runs grow st) (hn : ¬ Cyc st) {x y t u s cap : Nat} {es : List Nat}
    (hx : Names st x t) (ht : st.live t) (hs : st.sl t = .list s) (hc : (st.store s).cell = .list cap es) (hy : Names st y u) (hu : st.live u) :
    ∃ st' cap' es', step grow (.append x y) st = .ok .unit st' ∧ st'.sl t = .list s ∧ (st'.store s).cell = .list cap' es' ∧
      es'.map st'.sl = es.map st.sl ++ [st.sl u] ∧
      (∀ z, st.live z → (z ∉ es ∨ es.length < cap) → st'.live z) ∧
      (cap ≤ es.length → ∀ z, z ∈ es → ¬ st'.live z) := by
  have hi := (runs_ok h).inv
  obtain ⟨o, hxo, _⟩ := id hx
  obtain ⟨q, hyq, _⟩ := id hy
  have ha := hx.about hi.toInv0 hxo
  have hb := hy.about hi.toInv0 hyq
  have hq := hy.plain hi.toInv0 hu
  have hT := temp_temp hi
  generalize hst1 : st.new none [.null] = st1 at hT
  obtain ⟨hu1, eu, hud⟩ := hT.live hi.toInv0 hu
  obtain ⟨ht1, et, htd⟩ := hT.live hi.toInv0 ht
  have ha1 := hT.about hi.toInv0 ha ht
  have hb1 := hT.about hi.toInv0 hb hu
  obtain ⟨h1, hi2⟩ := copy_ok hT.inv grow hb1 hu1 (by rw [St.sl, eu]; exact hq) hT.fresh.value hT.fresh.null
  generalize hst2 : st1.setSlot st.nObj (st1.sl u) = st2 at h1 hi2
  have hobj : ∀ z, z ≠ st.nObj → st2.obj z = st1.obj z := fun z hz => by rw [← hst2]; simp [St.setSlot, St.setObj, hz]
  have hdsl : st2.sl st.nObj = st.sl u := by rw [← hst2, setSlot_sl, if_pos rfl, St.sl, eu]
  have hdl : st2.live st.nObj := by rw [← hst2]; exact (setSlot_live ..).2 hT.fresh.live
  have hdh : (st2.obj st.nObj).home = none := by rw [← hst2, setSlot_home]; exact hT.fresh.home
  have hst : st2.store = st.store := by rw [← hst2]; exact hT.store
  have henv2 : st2.env = st.env := by rw [← hst2]; exact hT.env
  have hn2 : st2.nObj = st.nObj + 1 := by rw [← hst2]; exact hT.nObj
  have hod : o ≠ st.nObj := by have := hi.objBound o ha.1; omega
  have ha2 : About st2 o t := by
    rw [About, St.live, St.sl, St.sl, hobj o hod, hobj t htd]; exact ha1
  have ht2 : st2.live t := by rw [St.live, hobj t htd]; exact ht1
  have hs2 : st2.sl t = .list s := by rw [St.sl, hobj t htd, et]; exact hs
  have hc2 : (st2.store s).cell = .list cap es := by rw [hst]; exact hc
  obtain ⟨hsl2, _⟩ := cell_list hi2.toInv0 ht2 hs2
  have hE := extend_extends hi2 grow hsl2 hc2 (slots := [st2.sl st.nObj]) (fun sl h => by
    rw [List.mem_singleton.1 h]; exact Value.good hi2.toInv0 ⟨hdl, by rw [hdsl]; exact hq⟩)
  have hel : ∀ z, z ∈ es → st.live z := fun z hz => by
    have := (hi.elems s z (by rw [St.liveS, ← hst]; exact hsl2) (by rw [St.el, hc]; exact hz)).1
    exact this
  obtain ⟨cap', es', g1, g2, g3, g4⟩ := extend_elems grow (st := st2) (s := s) (cap := cap) (es := es) (slots := [st2.sl st.nObj]) (fun z hz => by
    have := hi.objBound z (hel z hz); omega)
  generalize hst3 : st2.extend grow s cap es [st2.sl st.nObj] = st3 at hE g1 g2 g3 g4
  have hdes : st.nObj ∉ es := fun hm => by have := hi.objBound _ (hel _ hm); omega
  have hd3 : st3.obj st.nObj = st2.obj st.nObj := g3 _ (by omega) (.inl hdes)
  have hsh := kill_shrinks hE.inv.toInv0 (x := st.nObj) (by rw [St.live, hd3]; exact hdl) (by rw [hd3]; exact hdh) (fun v hv => by
    rw [hE.env, henv2] at hv
    have := hi.objBound _ (hi.env v _ hv).1
    omega)
  -- the new element
  obtain ⟨c, hc3, hcsl⟩ : ∃ c, c ∈ es' ∧ st3.sl c = st.sl u := by
    have : st.sl u ∈ es'.map st3.sl := by rw [g2, hdsl]; simp
    obtain ⟨c, h1, h2⟩ := List.mem_map.1 this
    exact ⟨c, h1, h2⟩
  have hcl := hE.inv.elems s c hE.liveS (by rw [St.el, g1]; exact hc3)
  have hcd : c ≠ st.nObj := by
    rintro rfl
    have := hcl.2.2
    rw [hd3, hdh] at this; cases this
  have hi4 := kill_shared hE.inv hsh hcl.1 hcd (by rw [hcsl, St.sl, hd3, ← St.sl, hdsl])
  have hkeep : ∀ z, z ≠ st.nObj → (st3.kill [st.nObj]).obj z = st3.obj z := fun z hz => by rw [hsh.obj, if_neg (by simpa using hz)]
  have holdlive : ∀ z, st.live z → (z ∉ es ∨ es.length < cap) → (st3.kill [st.nObj]).obj z = st.obj z := by
    intro z hz hh
    obtain ⟨_, ez, hzd⟩ := hT.live hi.toInv0 hz
    have := hi.objBound z hz
    rw [hkeep z hzd, g3 z (by omega) (by simpa [Nat.succ_le_iff] using hh), hobj z hzd, ez]
  refine ⟨st3.kill [st.nObj], cap', es', ?_, ?_, g1, ?_, ?_, ?_⟩
  · have hrun : appendObj grow t st.nObj st2 = .ok () st3 := by
      have hpl : (st2.sl t).plain = true := by rw [hs2]; rfl
      have has : asList t st2 = .ok () st2 := by
        rw [asList, bind_ok (run_plain ht2 hpl), hs2]; rfl
      rw [appendObj, bind_ok has, bind_ok (run_plain ht2 hpl), hs2]
      simp only
      rw [bind_ok (run_plain hdl (by rw [hdsl]; exact hq)), bind_ok (run_load hsl2)]
      simp only [hc2]
      rw [run_modify, hst3]
    rw [step, var, hxo]
    simp only
    rw [var, hyq]
    simp only
    rw [withTemp, hst1, bind_ok h1, bind_ok (by rw [ha2.targetCreate hi2.toInv0, if_pos ht2]), bind_ok hrun]
    simp only [run_pure]
    rw [collect_id hi4]
  · have htes : t ∉ es := fun hm => hn ⟨s, s, ⟨by rw [St.liveS, ← hst]; exact hsl2, t, by rw [St.el, hc]; exact hm, by rw [hs]; rfl⟩, .refl s⟩
    rw [St.sl, holdlive t ht (.inl htes)]; exact hs
  · rw [hdsl] at g2
    have e1 : es'.map (st3.kill [st.nObj]).sl = es'.map st3.sl := List.map_congr_left fun z hz => by
      have hzl := hE.inv.elems s z hE.liveS (by rw [St.el, g1]; exact hz)
      have : z ≠ st.nObj := by
        rintro rfl
        have := hzl.2.2
        rw [hd3, hdh] at this; cases this
      rw [St.sl, hkeep z this]
    have e2 : es.map st2.sl = es.map st.sl := List.map_congr_left fun z hz => by
      obtain ⟨_, ez, hzd⟩ := hT.live hi.toInv0 (hel z hz)
      rw [St.sl, hobj z hzd, ez]
    rw [e1, g2, e2]
  · intro z hz hh
    rw [St.live, holdlive z hz hh]; exact hz
  · intro hcap z hz
    have hzd : z ≠ st.nObj := fun e => hdes (e ▸ hz)
    rw [St.live, hkeep z hzd]
    exact g4 (by simp; omega) z hz

/-- **C94.** `Set` with a new key adds a copy; everything else stays as it is, and all references stay valid. -/
theorem insert_refs {grow : Nat → Nat → Nat} {st : St} (h : Runs grow st) (hn : ¬ Cyc st) {x y t u s : Nat} {m : List (Bytes × Nat)} {k : Bytes}
    (hx : Names st x t) (ht : st.live t) (hs : st.sl t = .map s) (hc : (st.store s).cell = .map m) (hk : AMap.get m k = none) (hy : Names st y u) (hu : st.live u) :
    ∃ st' c, step grow (.set x (.key k) y) st = .ok .unit st' ∧ (st'.store s).cell = .map (AMap.set m k c) ∧ st'.live c ∧ st'.sl c = st.sl u ∧
      ∀ z, st.live z → st'.obj z = st.obj z := by
  have hi := (runs_ok h).inv
  obtain ⟨o, hxo, _⟩ := id hx
  obtain ⟨q, hyq, _⟩ := id hy
  have ha := hx.about hi.toInv0 hxo
  have hb := hy.about hi.toInv0 hyq
  have hq := hy.plain hi.toInv0 hu
  have hT := temp_temp hi
  generalize hst1 : st.new none [.null] = st1 at hT
  obtain ⟨hu1, eu, hud⟩ := hT.live hi.toInv0 hu
  obtain ⟨ht1, et, htd⟩ := hT.live hi.toInv0 ht
  have ha1 := hT.about hi.toInv0 ha ht
  have hb1 := hT.about hi.toInv0 hb hu
  have hqd : q ≠ st.nObj := by have := hi.objBound q hb.1; omega
  obtain ⟨h1, hi2⟩ := copy_ok hT.inv grow hb1 hu1 (by rw [St.sl, eu]; exact hq) hT.fresh.value hT.fresh.null
  have hcopies := assign_temp hT.inv grow hT.fresh hb1.1 hb1.2.1 hqd
  rw [Tri, h1] at hcopies
  generalize hst2 : st1.setSlot st.nObj (st1.sl u) = st2 at h1 hi2 hcopies
  have hn2 : ¬ Cyc st2 := fun hh => hn (hT.cyc (hcopies.bk.cyc hT.inv.toInv0 hh))
  have hobj : ∀ z, z ≠ st.nObj → st2.obj z = st1.obj z := fun z hz => by rw [← hst2]; simp [St.setSlot, St.setObj, hz]
  have hdsl : st2.sl st.nObj = st.sl u := by rw [← hst2, setSlot_sl, if_pos rfl, St.sl, eu]
  have hdl : st2.live st.nObj := by rw [← hst2]; exact (setSlot_live ..).2 hT.fresh.live
  have hdh : (st2.obj st.nObj).home = none := by rw [← hst2, setSlot_home]; exact hT.fresh.home
  have hst : st2.store = st.store := by rw [← hst2]; exact hT.store
  have henv2 : st2.env = st.env := by rw [← hst2]; exact hT.env
  have hnb : st2.nObj = st.nObj + 1 := by rw [← hst2]; exact hT.nObj
  have hod : o ≠ st.nObj := by have := hi.objBound o ha.1; omega
  have ha2 : About st2 o t := by
    rw [About, St.live, St.sl, St.sl, hobj o hod, hobj t htd]; exact ha1
  have ht2 : st2.live t := by rw [St.live, hobj t htd]; exact ht1
  have hs2 : st2.sl t = .map s := by rw [St.sl, hobj t htd, et]; exact hs
  have hc2 : (st2.store s).cell = .map m := by rw [hst]; exact hc
  have hv2 : Value st2 t := ⟨ht2, by rw [hs2]; rfl⟩
  obtain ⟨hsl2, _⟩ := cell_map hi2.toInv0 ht2 hs2
  obtain ⟨st3, g1, g2, g3, g4, g5⟩ := insert_adds hi2 hn2 hv2 hs2 hc2 hk
  generalize hcc : st2.nObj = c at g1 g2 g3 g5
  have hcd : c ≠ st.nObj := by omega
  have hd3 : st3.obj st.nObj = st2.obj st.nObj := g4 _ hdl
  have hdv : Value st3 st.nObj := ⟨by rw [St.live, hd3]; exact hdl, by rw [St.sl, hd3, ← St.sl, hdsl]; exact hq⟩
  have hls3 : st3.liveS s := g2.inv.stoLive t s (by rw [St.live, g4 t ht2]; exact ht2) (by rw [St.sl, g4 t ht2, ← St.sl, hs2]; rfl)
  have hcm : c ∈ st3.el s := by
    rw [St.el, g5]
    obtain ⟨a, b, _, hset⟩ := set_split (v := c) hk
    rw [hset]; simp [Cell.elems]
  have hcl := g2.inv.elems s c hls3 hcm
  obtain ⟨k1, k2⟩ := copy_ok g2.inv grow (o := st.nObj) (u := st.nObj) ⟨hdv.1, by rw [hd3]; exact hdh, .inl ⟨hdv.2, rfl⟩⟩ hdv.1 hdv.2 ⟨hcl.1, hcl.2.1⟩ g3
  generalize hst4 : st3.setSlot c (st3.sl st.nObj) = st4 at k1 k2
  have hobj4 : ∀ z, z ≠ c → st4.obj z = st3.obj z := fun z hz => by rw [← hst4]; simp [St.setSlot, St.setObj, hz]
  have hd4 : st4.obj st.nObj = st2.obj st.nObj := by rw [hobj4 _ (Ne.symm hcd), hd3]
  have hc4 : st4.sl c = st.sl u := by rw [← hst4, setSlot_sl, if_pos rfl, St.sl, hd3, ← St.sl, hdsl]
  have hcl4 : st4.live c := by rw [← hst4]; exact (setSlot_live ..).2 hcl.1
  have hsh := kill_shrinks k2.toInv0 (x := st.nObj) (by rw [St.live, hd4]; exact hdl) (by rw [hd4]; exact hdh) (fun v hv => by
    have e : st4.env = st.env := by rw [← hst4]; show st3.env = _; rw [g2.bk.env, henv2]
    rw [e] at hv
    have := hi.objBound _ (hi.env v _ hv).1
    omega)
  have hi5 := kill_shared k2 hsh hcl4 hcd (by rw [hc4, St.sl, hd4, ← St.sl, hdsl])
  have hkeep : ∀ z, z ≠ st.nObj → (st4.kill [st.nObj]).obj z = st4.obj z := fun z hz => by rw [hsh.obj, if_neg (by simpa using hz)]
  refine ⟨st4.kill [st.nObj], c, ?_, ?_, ?_, ?_, ?_⟩
  · have hmk : mkElem grow t (.key k) st2 = .ok c st3 := by
      have has : asContainer t (.key k) st2 = .ok () st2 := by
        rw [asContainer, bind_ok (run_plain hv2.1 hv2.2), hs2]; rfl
      rw [mkElem, bind_ok has, mkIn, bind_ok (run_plain hv2.1 hv2.2), hs2]
      simp only
      rw [bind_ok (run_load hsl2)]
      simp only [hc2, hk]
      exact g1
    rw [step, var, hxo]
    simp only
    rw [var, hyq]
    simp only
    rw [withTemp, hst1, bind_ok h1, bind_ok (by rw [ha2.targetCreate hi2.toInv0, if_pos ht2]), bind_ok hmk, bind_ok k1]
    simp only [run_pure]
    rw [collect_id hi5]
  · show (st4.store s).cell = _
    rw [← hst4]; exact g5
  · rw [St.live, hkeep c hcd]; exact hcl4
  · rw [St.sl, hkeep c hcd]; exact hc4
  · intro z hz
    obtain ⟨hz1, ez, hzd⟩ := hT.live hi.toInv0 hz
    have := hi.objBound z hz
    rw [hkeep z hzd, hobj4 z (by omega), g4 z (by rw [St.live, hobj z hzd]; exact hz1), hobj z hzd, ez]

/-! ## The hypotheses are met -/

/-- Whether the variable `v` is, or refers to, the object `t`. -/
def namesB (st : St) (v t : Nat) : Bool :=
  match st.env v with
  | some o => ((st.sl t).plain && o == t) || st.sl o == .ref t
  | none => false

theorem namesB_names {st : St} {v t : Nat} (h : namesB st v t = true) : Names st v t := by
  rw [namesB] at h
  cases hv : st.env v with
  | none => rw [hv] at h; cases h
  | some o =>
    rw [hv] at h
    simp only [Bool.or_eq_true, Bool.and_eq_true, beq_iff_eq] at h
    exact ⟨o, hv, h⟩

/-- After `prog1` the variable `v0` is the list 0, `v2` refers to its element 3, and `v4` refers to it as well. -/
def prog2 : List Op := prog1 ++ [.mkRef 4 0, .at 5 4 (.index 0)]

/-- Two names for an element, two for the list, and the list is full. -/
example : ∃ st, Runs double st ∧ ¬ Cyc st ∧ Names st 2 3 ∧ Names st 5 3 ∧ st.live 3 ∧ Names st 0 0 ∧ Names st 4 0 ∧ st.live 0 ∧
    st.sl 0 = .list 0 ∧ (st.store 0).cell = .list 1 [3] := by
  obtain ⟨st, h1, h2, h3⟩ := after (grow := double) (ops := prog2) (p := fun st => namesB st 2 3 && namesB st 5 3 && (st.obj 3).alive && namesB st 0 0 && namesB st 4 0 &&
    (st.obj 0).alive && st.sl 0 == .list 0 && (st.store 0).cell == .list 1 [3]) (by decide +kernel)
  simp only [Bool.and_eq_true, beq_iff_eq] at h3
  obtain ⟨⟨⟨⟨⟨⟨⟨h3, h4⟩, h5⟩, h6⟩, h7⟩, h8⟩, h9⟩, h10⟩ := h3
  exact ⟨st, h1, h2, namesB_names h3, namesB_names h4, h5, namesB_names h6, namesB_names h7, h8, h9, h10⟩

/-- After another element was added the references to the first one are invalid. -/
example : ∃ st, Runs double st ∧ ¬ Cyc st ∧ Names st 2 3 ∧ ¬ st.live 3 ∧ (Call.put .null).Ready st := by
  obtain ⟨st, h1, h2, h3⟩ := after (grow := double) (ops := prog2 ++ [.append 0 1]) (p := fun st => namesB st 2 3 && !(st.obj 3).alive) (by decide +kernel)
  simp only [Bool.and_eq_true, Bool.not_eq_true'] at h3
  exact ⟨st, h1, h2, namesB_names h3.1, (by rw [St.live, h3.2]; simp), trivial⟩

/-- A map with a key, a reference to its element, and another key that is not there. -/
example : ∃ st, Runs double st ∧ ¬ Cyc st ∧ Names st 0 0 ∧ st.live 0 ∧ st.sl 0 = .map 0 ∧ (st.store 0).cell = .map [([97], 3)] ∧ Names st 2 3 ∧ st.live 3 ∧
    AMap.get [(([97] : Bytes), 3)] [98] = none := by
  obtain ⟨st, h1, h2, h3⟩ := after (grow := double) (ops := [.var 0, .put 0 .map, .var 1, .put 1 (.sca (.int 7)), .set 0 (.key [97]) 1, .at 2 0 (.key [97])])
    (p := fun st => namesB st 0 0 && (st.obj 0).alive && st.sl 0 == .map 0 && (st.store 0).cell == .map [([97], 3)] && namesB st 2 3 && (st.obj 3).alive) (by decide +kernel)
  simp only [Bool.and_eq_true, beq_iff_eq] at h3
  obtain ⟨⟨⟨⟨⟨h3, h4⟩, h5⟩, h6⟩, h7⟩, h8⟩ := h3
  exact ⟨st, h1, h2, namesB_names h3, h4, h5, h6, namesB_names h7, h8, by decide⟩

end Verif.Ref
