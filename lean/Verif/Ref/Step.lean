import Verif.Ref.Deep
/-!
# One step of a program
-/

namespace Verif.Ref
open Verif

/-- What holds between the operations of a program: the invariant, the library holds nothing, and the objects that are in no
container are the variables of the program. -/
structure Ok (st : St) : Prop where
  inv : Inv st
  holds : st.holds = []
  vars : ∀ x, st.live x → (st.obj x).home = none → ∃ v, st.env v = some x

theorem init_ok : Ok St.init := ⟨init_inv, rfl, fun x h => by simp [St.init, St.live] at h⟩

theorem Ok.safe {st st' : St} (h : Ok st) (h2 : Safe st st') : Ok st' where
  inv := h2.1
  holds := by rw [h2.2.holds, h.holds]
  vars x hl hh := by
    by_cases hb : x < st.nObj
    · obtain ⟨h3, h4⟩ := h2.2.old x hb hl
      rw [h2.2.env]
      exact h.vars x h3 (by rw [← h4]; exact hh)
    · exact absurd hh (h2.2.new x (by omega) hl)

theorem Ok.turned {st st' : St} {q : Nat} (h : Ok st) (h2 : Turned st q st') : Ok st' := by
  obtain ⟨st1, h3, h4⟩ := h2
  refine Ok.safe ⟨h3.inv, by rw [h3.holds]; exact h.holds, fun x hl hh => ?_⟩ h4
  rw [h3.home] at hh
  rw [h3.env]
  exact h.vars x ((h3.alive x).1 hl) hh

/-- What becomes of the program's variables. -/
structure Rel (st : St) (op : Op) (st' : St) : Prop where
  ok : Ok st'
  env : ∀ v o, st.env v = some o → op ≠ .del v → st'.env v = some o
  stays : ∀ x, st.live x → st'.live x → (∀ v, st.env v = some x → ¬ op.Turns v) → Evolve (st.obj x) (st'.obj x)
  gone : ∀ x, x < st.nObj → st'.live x → st.live x
  nObj : st.nObj ≤ st'.nObj

theorem Ok.rel {st st' : St} {op : Op} (h : Ok st) (h2 : Safe st st') : Rel st op st' :=
  ⟨h.safe h2, fun v o hv _ => by rw [h2.2.env]; exact hv, fun x hx hl _ => h2.2.stays x hx hl, fun x hx hl => (h2.2.old x hx hl).1, h2.2.nObj⟩

theorem Ok.relTurned {st st' : St} {r x q : Nat} (h : Ok st) (hr : st.env r = some q) (h2 : Turned st q st') : Rel st (.reassign r x) st' := by
  obtain ⟨st1, h3, h4⟩ := h2
  refine ⟨h.turned ⟨st1, h3, h4⟩, fun v o hv _ => by rw [h4.2.env, h3.env]; exact hv, fun y hy hl hv => ?_, fun y hy hl => ?_, ?_⟩
  · have e : y ≠ q := by rintro rfl; exact hv r hr (.inr ⟨x, rfl⟩)
    rw [← h3.obj y e]
    exact h4.2.stays y ((h3.alive y).2 hy) hl
  · exact (h3.alive y).1 (h4.2.old y (by rw [h3.nObj]; exact hy) hl).1
  · rw [← h3.nObj]; exact h4.2.nObj

theorem env_inv {st : St} (hi : Inv st) {env : Nat → Option Nat} (h1 : ∀ v x, env v = some x → st.live x ∧ (st.obj x).home = none)
    (h2 : ∀ v w x, env v = some x → env w = some x → v = w) : Inv { st with env := env } where
  objBound := hi.objBound
  storeBound := hi.storeBound
  rdBound := hi.rdBound
  stoLive := hi.stoLive
  holdLive := hi.holdLive
  fits := hi.fits
  cellOk := hi.cellOk
  elems := hi.elems
  nodup := hi.nodup
  home := hi.home
  plainRd := hi.plainRd
  plainRdInj := hi.plainRdInj
  refRd := hi.refRd
  tgtBound := hi.tgtBound
  env := h1
  envInj := h2
  owned := hi.owned

theorem declare_spec {st : St} (h : Ok st) {x : Nat} {f : Nat → M Unit} {B : Prop} {op : Op}
    (hf : ∀ st1, Temp st st1 st.nObj → Tri st1 (f st.nObj) B (fun _ => Safe st1) (Safe st1)) :
    Tri st (declare x f) B (fun _ => Rel st op) (Rel st op) := by
  have hT := temp_temp h.inv
  have hf := hf _ hT
  unfold Tri at hf ⊢
  rw [declare]
  cases hx : st.env x with
  | some o => exact h.rel (safe_refl h.inv)
  | none =>
    simp only
    generalize hst1 : st.new none [.null] = st1 at hT hf
    cases hr : f st.nObj st1 with
    | ok a st3 =>
      rw [hr] at hf
      simp only at hf ⊢
      obtain ⟨hi3, hfr⟩ := hf
      have hl := hfr.top _ hT.fresh.live hT.fresh.home
      have hh : (st3.obj st.nObj).home = none := by
        rw [(hfr.old _ (by rw [hT.nObj]; omega) hl).2]; exact hT.fresh.home
      have henv : st3.env = st.env := by rw [hfr.env, hT.env]
      have hne : ∀ v, st.env v ≠ some st.nObj := fun v hv => by
        have := h.inv.objBound _ (h.inv.env v _ hv).1; omega
      refine ⟨⟨env_inv hi3 ?_ ?_, ?_, ?_⟩, fun v o hv _ => ?_, fun y hy hl' _ => ?_, fun y hy hl' => ?_, ?_⟩
      · intro v y hv
        by_cases e : v = x
        · rw [if_pos e] at hv; cases hv; exact ⟨hl, hh⟩
        · rw [if_neg e] at hv; exact hi3.env v y hv
      · intro v w y hv hw
        by_cases e : v = x
        · by_cases e' : w = x
          · rw [e, e']
          · rw [if_pos e] at hv; rw [if_neg e', henv] at hw
            cases hv; exact absurd hw (hne w)
        · by_cases e' : w = x
          · rw [if_neg e, henv] at hv; rw [if_pos e'] at hw
            cases hw; exact absurd hv (hne v)
          · rw [if_neg e] at hv; rw [if_neg e'] at hw; exact hi3.envInj v w y hv hw
      · show st3.holds = []
        rw [hfr.holds, hT.holds, h.holds]
      · intro y hy hyh
        by_cases e : y = st.nObj
        · exact ⟨x, by rw [e]; simp⟩
        · by_cases hb : y < st1.nObj
          · obtain ⟨h3, h4⟩ := hfr.old y hb hy
            rw [St.live, hT.obj y e] at h3
            obtain ⟨v, hv⟩ := h.vars y h3 (by rw [← hT.obj y e, ← h4]; exact hyh)
            refine ⟨v, ?_⟩
            have : v ≠ x := by rintro rfl; rw [hx] at hv; cases hv
            simp only [if_neg this, henv]; exact hv
          · exact absurd hyh (hfr.new y (by omega) hy)
      · have : v ≠ x := by rintro rfl; rw [hx] at hv; cases hv
        show (if v = x then _ else st3.env v) = _
        rw [if_neg this, henv]; exact hv
      · obtain ⟨h1, h2, _⟩ := hT.live h.inv.toInv0 hy
        rw [← h2]
        exact hfr.stays y h1 hl'
      · have e : y ≠ st.nObj := by omega
        have := (hfr.old y (by rw [hT.nObj]; omega) hl').1
        rwa [St.live, hT.obj y e] at this
      · have := hfr.nObj
        rw [hT.nObj] at this
        show st.nObj ≤ st3.nObj
        omega
    | thr e st3 =>
      rw [hr] at hf
      exact h.rel (hT.close h.inv.toInv0 hf).2.2
    | ub =>
      rw [hr] at hf
      exact hf

theorem del_ok {st : St} (h : Ok st) {x o : Nat} (hx : st.env x = some o) :
    Rel st (.del x) (({ st with env := fun y => if y = x then none else st.env y }.kill [o]).collect) := by
  obtain ⟨ho, hoh⟩ := h.inv.env x o hx
  have hi0 : Inv { st with env := fun y => if y = x then none else st.env y } := by
    refine env_inv h.inv ?_ ?_
    · intro v y hv
      by_cases e : v = x
      · rw [if_pos e] at hv; cases hv
      · rw [if_neg e] at hv; exact h.inv.env v y hv
    · intro v w y hv hw
      by_cases e : v = x
      · rw [if_pos e] at hv; cases hv
      · by_cases e' : w = x
        · rw [if_pos e'] at hw; cases hw
        · rw [if_neg e] at hv; rw [if_neg e'] at hw; exact h.inv.envInj v w y hv hw
  generalize hst0 : ({ st with env := fun y => if y = x then none else st.env y } : St) = st0 at hi0
  have hobj : st0.obj = st.obj := by rw [← hst0]
  have henv : ∀ y, st0.env y = if y = x then none else st.env y := by rw [← hst0]; intro y; rfl
  have hsh := kill_shrinks hi0.toInv0 (x := o) (by rw [St.live, hobj]; exact ho) (by rw [hobj]; exact hoh) (fun v hv => by
    rw [henv] at hv
    by_cases e : v = x
    · rw [if_pos e] at hv; cases hv
    · rw [if_neg e] at hv; exact e (h.inv.envInj v x o hv hx))
  have h0 := hsh.inv hi0.toInv0
  obtain ⟨hc, hi'⟩ := collect_inv h0
  refine ⟨⟨hi', ?_, ?_⟩, fun v q hv hd => ?_, fun y hy hl _ => ?_, fun y hy hl => ?_, ?_⟩
  · rw [hc.holds, hsh.holds, ← hst0]; exact h.holds
  · intro y hy hyh
    obtain ⟨h1, h2⟩ := hc.obj y hy
    obtain ⟨h3, h4⟩ := (hsh.live y).1 h1
    rw [h2, hsh.same h1, hobj] at hyh
    rw [St.live, hobj] at h3
    obtain ⟨v, hv⟩ := h.vars y h3 hyh
    refine ⟨v, ?_⟩
    rw [hc.env, hsh.env, henv]
    have : v ≠ x := by
      rintro rfl
      rw [hx] at hv; cases hv
      simp at h4
    rw [if_neg this]; exact hv
  · have e : v ≠ x := by rintro rfl; exact hd rfl
    rw [hc.env, hsh.env, henv, if_neg e]; exact hv
  · obtain ⟨h1, h2⟩ := hc.obj y hl
    rw [h2, hsh.same h1, hobj]; exact .refl _
  · have h3 := ((hsh.live y).1 (hc.obj y hl).1).1
    rwa [St.live, hobj] at h3
  · rw [hc.nObj, hsh.nObj, ← hst0]; exact Nat.le_refl _

theorem var_spec {st : St} {x : Nat} {f : Nat → M View} {B : Prop} {op : Op} (h : Ok st)
    (hf : ∀ o, st.env x = some o → Tri st (f o) B (fun _ => Rel st op) (Rel st op)) :
    Tri st (var x f) B (fun _ => Rel st op) (Rel st op) := by
  unfold Tri at hf ⊢
  rw [var]
  cases hx : st.env x with
  | some o => exact hf o hx
  | none => exact h.rel (safe_refl h.inv)

theorem Tri.fin {st : St} {m : M α} {f : α → View} {B : Prop} {op : Op} (h : Ok st) (hm : Tri st m B (fun _ => Safe st) (Safe st)) :
    Tri st (m >>= fun a => pure (f a)) B (fun _ => Rel st op) (Rel st op) :=
  hm.bind id (fun _ h2 => h.rel h2) fun _ _ h2 => .ok rfl (h.rel h2)

theorem Targets.ne_fresh {st st' : St} {x t q : Nat} (h : Targets st st' x t) (hq : Fresh st' q) (hl : st'.live x) (hx : x ≠ q) : t ≠ q := by
  rcases h.is with ⟨h1, _⟩ | h1
  · rw [h1]; exact hx
  · exact unref_ne hq.unref hl (by rw [h1]; rfl)

theorem step_spec {st : St} (h : Ok st) (hn : ¬ Cyc st) (grow : Nat → Nat → Nat) (op : Op) :
    Tri st (step grow op) (Hazard st op) (fun _ => Rel st op) (Rel st op) := by
  have hi := h.inv
  cases op with
  | var x => exact declare_spec h (f := fun _ => pure ()) fun st1 hT => .ok rfl ⟨hT.inv, .refl hT.inv.toInv0⟩
  | del x =>
    simp only [step, Tri]
    cases hx : st.env x with
    | none => exact h.rel (safe_refl hi)
    | some o => exact del_ok h hx
  | put x v =>
    refine var_spec h fun o ho => ?_
    obtain ⟨h1, h2⟩ := hi.env x o ho
    refine (targetCreate_spec hi hn grow h1 fun _ => h2).bind (fun hb => .inl ⟨x, o, by simp [Op.uses], ho, hb⟩) (fun _ hs => h.rel hs.1) ?_
    intro d st1 h3
    exact ((assignLit_spec h3.inv (fun hc => hn (h3.bk.cyc hi.toInv0 hc)) h3.value v).safe hi.toInv0 h3.bk.toFr).bind False.elim (fun _ h2 => h.rel h2)
      fun _ _ h2 => .ok rfl (h.rel h2)
  | assign x y =>
    refine var_spec h fun o ho => var_spec h fun q hq => ?_
    obtain ⟨h1, h2⟩ := hi.env x o ho
    obtain ⟨h3, h4⟩ := hi.env y q hq
    refine .fin h ((assign_spec hi hn grow h3 h4 h1 (.inl h2)).mono ?_ (fun _ _ h => h) (fun _ h => h))
    rintro (hb | hb | hb)
    · exact .inl ⟨y, q, by simp [Op.uses], hq, hb⟩
    · exact .inl ⟨x, o, by simp [Op.uses], ho, hb⟩
    · exact .inr (.inl ⟨x, y, o, q, rfl, ho, hq, hb⟩)
  | mkRef r x =>
    refine var_spec h fun o ho => declare_spec h fun st1 hT => ?_
    obtain ⟨h1, h2, h3⟩ := hT.live hi.toInv0 (hi.env x o ho).1
    exact makeRef_fresh hT.inv hT.fresh h1 h3
  | mkProxy r x p =>
    refine var_spec h fun o ho => declare_spec h fun st1 hT => ?_
    obtain ⟨h1, h2, h3⟩ := hT.live hi.toInv0 (hi.env x o ho).1
    exact makeProxy_fresh hT.inv p hT.fresh h1 h3
  | «at» r x e =>
    refine var_spec h fun o ho => declare_spec h fun st1 hT => ?_
    obtain ⟨h1, h2, h3⟩ := hT.live hi.toInv0 (hi.env x o ho).1
    exact (refAt_spec hT.inv hT.fresh h1 (by rw [h2]; exact (hi.env x o ho).2) h3 e).mono
      (fun hb => .inl ⟨x, o, by simp [Op.uses], ho, hT.bad hb⟩) (fun _ _ h => h) (fun _ h => h)
  | atPath r x p =>
    refine var_spec h fun o ho => declare_spec h fun st1 hT => ?_
    obtain ⟨h1, h2, h3⟩ := hT.live hi.toInv0 (hi.env x o ho).1
    exact (refAtPath_spec hT.inv hT.fresh h1 (by rw [h2]; exact (hi.env x o ho).2) h3 p).mono
      (fun hb => .inl ⟨x, o, by simp [Op.uses], ho, hT.bad hb⟩) (fun _ _ h => h) (fun _ h => h)
  | atPathDef r x p y =>
    refine var_spec h fun o ho => var_spec h fun v hv => declare_spec h fun st1 hT => ?_
    obtain ⟨h1, h2, h3⟩ := hT.live hi.toInv0 (hi.env x o ho).1
    obtain ⟨h4, h5, h6⟩ := hT.live hi.toInv0 (hi.env y v hv).1
    have hoh : (st1.obj o).home = none := by rw [h2]; exact (hi.env x o ho).2
    have hvh : (st1.obj v).home = none := by rw [h5]; exact (hi.env y v hv).2
    refine (withTemp_spec hT.inv (Q := fun _ _ => True) (B := Hazard st (.atPathDef r x p y)) ?_).mono id (fun _ _ h => h.1) (fun _ h => h)
    have hT2 := temp_temp hT.inv
    generalize st1.new none [.null] = st2 at hT2
    obtain ⟨g1, g2, g3⟩ := hT2.live hT.inv.toInv0 h1
    obtain ⟨g4, g5, g6⟩ := hT2.live hT.inv.toInv0 h4
    obtain ⟨g7, g8, g9⟩ := hT2.live hT.inv.toInv0 hT.fresh.live
    have hq2 : Fresh st2 st.nObj := hT.fresh.keep g8 (hT2.unref hT.fresh.unref)
    have hoh2 : (st2.obj o).home = none := by rw [g2]; exact hoh
    have hvh2 : (st2.obj v).home = none := by rw [g5]; exact hvh
    refine (assign_temp hT2.inv grow hT2.fresh g4 hvh2 g6).bind
      (fun hb => .inl ⟨y, v, by simp [Op.uses], hv, hT.bad (hT2.bad hb)⟩) (fun _ h => h) ?_
    intro _ st3 h7
    obtain ⟨h8, h9⟩ := h7.quiet _ hq2.live hq2.home (Ne.symm h6) g9 hq2.unref
    have ho3 := h7.bk.top o g1 hoh2
    have hoh3 : (st3.obj o).home = none := by rw [(h7.bk.old o (hT2.inv.objBound o g1) ho3).2]; exact hoh2
    refine (Tri.safe hT2.inv.toInv0 h7.bk.toFr (refAtPathDef_spec h7.inv (fun hc => hn (hT.cyc (hT2.cyc (h7.bk.cyc hT2.inv.toInv0 hc)))) grow (hq2.keep h8 h9)
      ho3 hoh3 h3 h7.value h7.home h7.unref g3 p)).mono (fun hb => .inl ⟨x, o, by simp [Op.uses], ho, hT.bad (hT2.bad (h7.bad o g1 hoh2 hb))⟩)
      (fun _ _ h => ⟨h, trivial⟩) (fun _ h => h)
  | reassign r x =>
    refine var_spec h fun q hq => var_spec h fun o ho => ?_
    obtain ⟨h1, h2⟩ := hi.env r q hq
    obtain ⟨h3, h4⟩ := hi.env x o ho
    refine .after (run_deref h1) ?_
    by_cases hp : (st.obj q).slot.plain = true
    · rw [if_pos hp]; exact .ok rfl (h.rel (safe_refl hi))
    · rw [if_neg hp]
      refine (makeRef_spec hi h1 h2 (by simpa using hp) h3 h4).bind ?_ (fun _ h2 => by rw [h2]; exact h.rel (safe_refl hi)) (fun _ _ h2 => .ok rfl (h.relTurned hq h2))
      rintro (hb | ⟨rfl, hb⟩)
      · exact .inr (.inr ⟨r, x, q, o, rfl, hq, ho, .inl hb⟩)
      · exact .inr (.inr ⟨r, x, o, o, rfl, hq, ho, .inr ⟨rfl, hb⟩⟩)
  | set x e y =>
    refine var_spec h fun o ho => var_spec h fun v hv => ?_
    obtain ⟨h1, h2⟩ := hi.env x o ho
    obtain ⟨h3, h4⟩ := hi.env y v hv
    refine (withTemp_spec hi (Q := fun _ _ => True) (B := Hazard st (.set x e y)) ?_).mono id (fun _ _ h2 => h.rel h2.1) (fun _ h2 => h.rel h2)
    have hT := temp_temp hi
    generalize st.new none [.null] = st1 at hT
    obtain ⟨g1, g2, g3⟩ := hT.live hi.toInv0 h1
    obtain ⟨g4, g5, g6⟩ := hT.live hi.toInv0 h3
    have hoh1 : (st1.obj o).home = none := by rw [g2]; exact h2
    refine (assign_temp hT.inv grow hT.fresh g4 (by rw [g5]; exact h4) g6).bind
      (fun hb => .inl ⟨y, v, by simp [Op.uses], hv, hT.bad hb⟩) (fun _ h => h) ?_
    intro _ st2 h5
    have ho2 := h5.bk.top o g1 hoh1
    have hoh2 : (st2.obj o).home = none := by rw [(h5.bk.old o (hT.inv.objBound o g1) ho2).2]; exact hoh1
    have hn2 : ¬ Cyc st2 := fun hc => hn (hT.cyc (h5.bk.cyc hT.inv.toInv0 hc))
    refine (targetCreate_spec h5.inv hn2 grow ho2 fun _ => hoh2).bind
      (fun hb => .inl ⟨x, o, by simp [Op.uses], ho, hT.bad (h5.bad o g1 hoh1 hb)⟩) (fun _ h => safe_trans hT.inv.toInv0 h5.bk.toFr h.1) ?_
    intro t st3 h6
    have hn3 : ¬ Cyc st3 := fun hc => hn2 (h6.bk.cyc h5.inv.toInv0 hc)
    have hf3 := h5.bk.toFr.trans h6.bk.toFr hT.inv.toInv0
    obtain ⟨h7, h8⟩ := h6.quiet _ h5.value.1 h5.home (Ne.symm g3) h5.unref
    have htd := h6.ne (h6.bk.top o ho2 hoh2) g3 h8
    refine (mkElem_spec h6.inv hn3 grow h6.value e).bind False.elim (fun _ h => safe_trans hT.inv.toInv0 hf3 h.1) ?_
    rintro c st4 ⟨h9, _⟩
    have hf4 := hf3.trans h9.bk.toFr hT.inv.toInv0
    have hn4 : ¬ Cyc st4 := fun hc => hn3 (h9.bk.cyc h6.inv.toInv0 hc)
    have h10 := h9.frame st.nObj (by rw [St.live, h7]; exact h5.value.1) (by rw [h7]; exact h5.home) (Ne.symm htd)
    have hd4 : Value st4 st.nObj := ⟨by rw [St.live, h10, h7]; exact h5.value.1, by rw [St.sl, h10, h7]; exact h5.value.2⟩
    obtain ⟨h11, h12⟩ := h9.reach t h6.value (.refl t)
    have hc := h12.value h9.inv.toInv0 h11
    have hnb : ∀ z, Value st4 z → ¬ BadProxy st4 z := by
      rintro z hz ⟨_, _, _, _, hs, _⟩
      have := hz.2; rw [hs] at this; cases this
    refine ((assign_spec h9.inv hn4 grow hd4.1 (by rw [h10, h7]; exact h5.home) hc.1 (.inr ⟨hc.2, hd4⟩)).safe hT.inv.toInv0 hf4).bind ?_ (fun _ h => h)
      (fun _ _ h => .ok rfl ⟨h, trivial⟩)
    rintro (hb | hb | ⟨⟨_, _, _, hs⟩, _⟩)
    · exact absurd hb (hnb _ hd4)
    · exact absurd hb (hnb _ hc)
    · have := hc.2; rw [hs] at this; cases this
  | append x y =>
    refine var_spec h fun o ho => var_spec h fun v hv => ?_
    obtain ⟨h1, h2⟩ := hi.env x o ho
    obtain ⟨h3, h4⟩ := hi.env y v hv
    refine (withTemp_spec hi (Q := fun _ _ => True) (B := Hazard st (.append x y)) ?_).mono id (fun _ _ h2 => h.rel h2.1) (fun _ h2 => h.rel h2)
    have hT := temp_temp hi
    generalize st.new none [.null] = st1 at hT
    obtain ⟨g1, g2, g3⟩ := hT.live hi.toInv0 h1
    obtain ⟨g4, g5, g6⟩ := hT.live hi.toInv0 h3
    have hoh1 : (st1.obj o).home = none := by rw [g2]; exact h2
    refine (assign_temp hT.inv grow hT.fresh g4 (by rw [g5]; exact h4) g6).bind
      (fun hb => .inl ⟨y, v, by simp [Op.uses], hv, hT.bad hb⟩) (fun _ h => h) ?_
    intro _ st2 h5
    have ho2 := h5.bk.top o g1 hoh1
    have hoh2 : (st2.obj o).home = none := by rw [(h5.bk.old o (hT.inv.objBound o g1) ho2).2]; exact hoh1
    have hn2 : ¬ Cyc st2 := fun hc => hn (hT.cyc (h5.bk.cyc hT.inv.toInv0 hc))
    refine (targetCreate_spec h5.inv hn2 grow ho2 fun _ => hoh2).bind
      (fun hb => .inl ⟨x, o, by simp [Op.uses], ho, hT.bad (h5.bad o g1 hoh1 hb)⟩) (fun _ h => safe_trans hT.inv.toInv0 h5.bk.toFr h.1) ?_
    intro t st3 h6
    have hf3 := h5.bk.toFr.trans h6.bk.toFr hT.inv.toInv0
    obtain ⟨h7, h8⟩ := h6.quiet _ h5.value.1 h5.home (Ne.symm g3) h5.unref
    have htd := h6.ne (h6.bk.top o ho2 hoh2) g3 h8
    exact ((appendObj_spec h6.inv grow h6.value (d := st.nObj) ⟨by rw [St.live, h7]; exact h5.value.1, by rw [St.sl, h7]; exact h5.value.2⟩
      (by rw [h7]; exact h5.home) htd).safe hT.inv.toInv0 hf3).bind False.elim (fun _ h => h) (fun _ _ h => .ok rfl ⟨h, trivial⟩)
  | erase x e =>
    refine var_spec h fun o ho => ?_
    obtain ⟨h1, h2⟩ := hi.env x o ho
    refine (target_spec hi h1 fun _ => h2).bind (fun hb => .inl ⟨x, o, by simp [Op.uses], ho, hb⟩) (fun _ hs => h.rel ⟨hs.1, hs.2.toFr⟩) ?_
    intro t st1 h3
    exact ((eraseElem_spec h3.turn.inv (fun hc => hn (h3.turn.bk.cyc hi.toInv0 hc)) h3.value e).safe hi.toInv0 h3.turn.bk.toFr).bind False.elim
      (fun _ h2 => h.rel h2) fun _ _ h2 => .ok rfl (h.rel h2)
  | clear x =>
    refine var_spec h fun o ho => ?_
    obtain ⟨h1, h2⟩ := hi.env x o ho
    refine (target_spec hi h1 fun _ => h2).bind (fun hb => .inl ⟨x, o, by simp [Op.uses], ho, hb⟩) (fun _ hs => h.rel ⟨hs.1, hs.2.toFr⟩) ?_
    intro t st1 h3
    exact ((clearObj_spec h3.turn.inv (fun hc => hn (h3.turn.bk.cyc hi.toInv0 hc)) h3.value).safe hi.toInv0 h3.turn.bk.toFr).bind False.elim
      (fun _ h2 => h.rel h2) fun _ _ h2 => .ok rfl (h.rel h2)
  | copy x y =>
    refine var_spec h fun o ho => declare_spec h fun st1 hT => ?_
    obtain ⟨h1, h2, h3⟩ := hT.live hi.toInv0 (hi.env y o ho).1
    refine (target_spec hT.inv h1 fun _ => by rw [h2]; exact (hi.env y o ho).2).bind (fun hb => .inl ⟨y, o, by simp [Op.uses], ho, hT.bad hb⟩) (fun _ hs => ⟨hs.1, hs.2.toFr⟩) ?_
    intro t st2 h4
    obtain ⟨h5, h6⟩ := h4.quiet _ hT.fresh.live hT.fresh.home (Ne.symm h3) hT.fresh.unref
    have hq := hT.fresh.keep h5 h6
    obtain ⟨st3, h7, h8, _⟩ := copyDeep_spec h4.turn.inv (fun hc => hn (hT.cyc (h4.turn.bk.cyc hT.inv.toInv0 hc))) grow h4.value hq.live hq.home hq.null (h4.ne_fresh hq (h4.turn.bk.top o h1 (by rw [h2]; exact (hi.env y o ho).2)) h3)
    exact .ok h7 (safe_trans hT.inv.toInv0 h4.turn.bk.toFr ⟨h8.inv, h8.bk.toFr⟩)
  | look x =>
    refine var_spec h fun o ho => ?_
    obtain ⟨h1, h2⟩ := hi.env x o ho
    refine (target_spec hi h1 fun _ => h2).bind (fun hb => .inl ⟨x, o, by simp [Op.uses], ho, hb⟩) (fun _ hs => h.rel ⟨hs.1, hs.2.toFr⟩) ?_
    intro t st1 h3
    exact .ok (view_spec h3.turn.inv.toInv0 h3.value) (h.rel ⟨h3.turn.inv, h3.turn.bk.toFr⟩)
  | «exists» x =>
    refine var_spec h fun o ho => ?_
    obtain ⟨b, h1⟩ := existsObj_spec hi (hi.env x o ho).1
    exact .after h1 (.ok rfl (h.rel (safe_refl hi)))

end Verif.Ref
