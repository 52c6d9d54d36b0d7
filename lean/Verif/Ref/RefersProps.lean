import Verif.Ref.SafetyProps
/-!
# What a reference refers to (C94)
-/

namespace Verif.Ref
open Verif

/-- The variable `v` is the object `t`, or a (resolved) reference to it. -/
def Names (st : St) (v t : Nat) : Prop := ∃ o, st.env v = some o ∧ ((st.sl t).plain = true ∧ o = t ∨ st.sl o = .ref t)

/-! ## It refers to the same object for ever -/

theorem step_rel {grow : Nat → Nat → Nat} {st st' : St} (h : Ok st) (hn : ¬ Cyc st) {op : Op}
    (hs : (∃ v, step grow op st = .ok v st') ∨ ∃ e, step grow op st = .thr e st') : Rel st op st' := by
  have := step_spec h hn grow op
  rw [Tri] at this
  rcases hs with ⟨_, hs⟩ | ⟨_, hs⟩ <;> rw [hs] at this <;> exact this

theorem steps_cons {grow : Nat → Nat → Nat} {st st' : St} {ops : List Op} (P : St → List Op → Prop)
    (hstep : ∀ st op st1 ops, Ok st → P st (op :: ops) → Rel st op st1 → P st1 ops) (h : Ok st) (hs : Steps grow st ops st') (hP : P st ops) : P st' [] := by
  induction hs with
  | nil => exact hP
  | ok hn hr _ ih =>
    have := step_rel h hn (.inl ⟨_, hr⟩)
    exact ih this.ok (hstep _ _ _ _ h hP this)
  | thr hn hr _ ih =>
    have := step_rel h hn (.inr ⟨_, hr⟩)
    exact ih this.ok (hstep _ _ _ _ h hP this)

/-- **C94.** A reference that is resolved refers to the same object for ever, whatever the program does, unless the program
makes it refer to something else or destroys it. -/
theorem refers_forever {grow : Nat → Nat → Nat} {st st' : St} (h : Runs grow st) {ops : List Op} (hs : Steps grow st ops st') {r q t : Nat}
    (hr : st.env r = some q) (hq : st.sl q = .ref t) (hops : ∀ op ∈ ops, ¬ op.Turns r) : st'.env r = some q ∧ st'.sl q = .ref t := by
  have := steps_cons (fun st ops => st.env r = some q ∧ st.sl q = .ref t ∧ ∀ op ∈ ops, ¬ op.Turns r) ?_ (runs_ok h) hs ⟨hr, hq, hops⟩
  · exact ⟨this.1, this.2.1⟩
  · rintro st op st1 ops hk ⟨h1, h2, h3⟩ hR
    have h4 := hR.env r q h1 (fun e => h3 op (by simp) (.inl e))
    have hl := (hk.inv.env r q h1).1
    refine ⟨h4, (hR.stays q hl (hR.ok.inv.env r q h4).1 ?_).ref t h2, fun op h => h3 op (by simp [h])⟩
    intro v hv
    rw [hk.inv.envInj v r q hv h1]
    exact h3 op (by simp)

/-- A reference to a variable stays valid as long as the variable exists. -/
theorem refers_var {grow : Nat → Nat → Nat} {st st' : St} (h : Runs grow st) {ops : List Op} (hs : Steps grow st ops st') {r q x t : Nat}
    (hr : st.env r = some q) (hq : st.sl q = .ref t) (hx : st.env x = some t) (hops : ∀ op ∈ ops, ¬ op.Turns r ∧ op ≠ .del x) :
    st'.env r = some q ∧ st'.sl q = .ref t ∧ st'.env x = some t ∧ st'.live t ∧ (st'.sl t).plain = true := by
  obtain ⟨h1, h2⟩ := refers_forever h hs hr hq fun op ho => (hops op ho).1
  have h3 : st'.env x = some t := by
    have := steps_cons (fun st ops => st.env x = some t ∧ ∀ op ∈ ops, op ≠ .del x) ?_ (runs_ok h) hs ⟨hx, fun op ho => (hops op ho).2⟩
    · exact this.1
    · rintro st op st1 ops hk ⟨h1, h2⟩ hR
      exact ⟨hR.env x t h1 (h2 op (by simp)), fun op h => h2 op (by simp [h])⟩
  have hk := steps_rel (runs_ok h) hs
  have hl := (hk.inv.env x t h3).1
  obtain ⟨k, _, _, h5⟩ := hk.inv.refRd q t (hk.inv.env r q h1).1 (by rw [h2]; rfl)
  exact ⟨h1, h2, h3, hl, (h5 hl).1⟩

/-- What was destroyed does not come back. -/
theorem dead_stays {grow : Nat → Nat → Nat} {st st' : St} (h : Runs grow st) {ops : List Op} (hs : Steps grow st ops st') {x : Nat}
    (hx : x < st.nObj) (hd : ¬ st.live x) : ¬ st'.live x := by
  refine (steps_cons (fun st _ => x < st.nObj ∧ ¬ st.live x) ?_ (runs_ok h) hs ⟨hx, hd⟩).2
  rintro st op st1 ops hk ⟨h1, h2⟩ hR
  exact ⟨Nat.lt_of_lt_of_le h1 hR.nObj, fun h => h2 (hR.gone x h1 h)⟩

/-- A reference whose target is gone stays invalid. -/
theorem invalid_stays {grow : Nat → Nat → Nat} {st st' : St} (h : Runs grow st) {ops : List Op} (hs : Steps grow st ops st') {r q t : Nat}
    (hr : st.env r = some q) (hq : st.sl q = .ref t) (hops : ∀ op ∈ ops, ¬ op.Turns r) (hd : ¬ st.live t) :
    st'.env r = some q ∧ st'.sl q = .ref t ∧ ¬ st'.live t := by
  obtain ⟨h1, h2⟩ := refers_forever h hs hr hq hops
  have hi := (runs_ok h).inv
  exact ⟨h1, h2, dead_stays h hs (hi.tgtBound q t (hi.env r q hr).1 (by rw [hq]; rfl)) hd⟩

/-! ## Whether the target exists -/

/-- `Exists` of a reference tells whether its target exists. -/
theorem exists_ref {grow : Nat → Nat → Nat} {st : St} (h : Runs grow st) {r q t : Nat} (hr : st.env r = some q) (hq : st.sl q = .ref t) :
    ∃ b, step grow (.exists r) st = .ok (.exists b) st ∧ (b = true ↔ st.live t) := by
  have hi := (runs_ok h).inv
  have hl := (hi.env r q hr).1
  obtain ⟨k, h1, h2, _⟩ := hi.refRd q t hl (by rw [hq]; rfl)
  refine ⟨st.valid k, ?_, h2⟩
  have h3 : existsObj q st = .ok (st.valid k) st := by
    rw [existsObj, bind_ok (run_deref hl)]
    rw [St.sl] at hq
    simp only [hq, h1]; rfl
  rw [step, var, hr]
  simp only
  rw [bind_ok h3]; rfl

/-- `Exists` of an unresolved reference tells whether its target exists and the path leads to something by now. -/
theorem exists_proxy {grow : Nat → Nat → Nat} {st : St} (h : Runs grow st) {r q t : Nat} {p : VPath} {k : Option Nat} (hr : st.env r = some q)
    (hq : st.sl q = .proxy t p k) : ∃ b, step grow (.exists r) st = .ok (.exists b) st ∧ (b = true ↔ st.live t ∧ ∃ c, path? st t p = some c) := by
  have hi := (runs_ok h).inv
  have hl := (hi.env r q hr).1
  obtain ⟨j, h1, h2, h3⟩ := hi.refRd q t hl (by rw [hq]; rfl)
  rw [step, var, hr]
  simp only
  rw [St.sl] at hq
  have hv : existsObj.isValid (some j) st = .ok (st.valid j) st := rfl
  cases hb : st.valid j with
  | false =>
    refine ⟨false, ?_, ?_⟩
    · have h4 : existsObj q st = .ok false st := by
        rw [existsObj, bind_ok (run_deref hl)]
        simp only [hq, h1]
        rw [bind_ok hv, hb]; rfl
      rw [bind_ok h4]; rfl
    · refine ⟨fun h => (Bool.noConfusion h), fun h => ?_⟩
      rw [h2.2 h.1] at hb; cases hb
  | true =>
    have ht := h2.1 hb
    refine ⟨(path? st t p).isSome, ?_, ?_⟩
    · have h4 : existsObj q st = .ok (path? st t p).isSome st := by
        rw [existsObj, bind_ok (run_deref hl)]
        simp only [hq, h1]
        rw [bind_ok hv, hb]
        simp only [if_true]
        rw [bind_ok (find_eq hi.toInv0 p ⟨ht, (h3 ht).1⟩)]; rfl
      rw [bind_ok h4]; rfl
    · rw [Option.isSome_iff_exists]
      exact ⟨fun h => ⟨ht, h⟩, fun h => h.2⟩

/-! ## Operations through a reference -/

/-- What can be done with a variant `x`, apart from destroying it and making it refer to something else. -/
inductive Call where
  | put (v : Lit)                            -- x = v
  | assign (y : Nat)                         -- x = y
  | assignTo (y : Nat)                       -- y = x
  | mkRef (r : Nat)                          -- VariantRef r = x.Ref()
  | mkProxy (r : Nat) (p : VPath)            -- VariantRef r(x, p)
  | at (r : Nat) (e : PathElem)              -- VariantRef r = x[e]
  | atPath (r : Nat) (p : VPath)             -- VariantRef r = x.AtPath(p)
  | atPathDef (r : Nat) (p : VPath) (y : Nat)  -- VariantRef r = x.AtPath(p, y)
  | atPathOr (r y : Nat) (p : VPath)         -- VariantRef r = y.AtPath(p, x)
  | reassign (r : Nat)                       -- r.ReassignRef(x)
  | set (e : PathElem) (y : Nat)             -- x.Set(e, y)
  | setIn (y : Nat) (e : PathElem)           -- y.Set(e, x)
  | append (y : Nat)                         -- x.Append(y)
  | appendTo (y : Nat)                       -- y.Append(x)
  | erase (e : PathElem)                     -- x.Erase(e)
  | clear                                    -- x.Clear()
  | look                                     -- reading x
  | exists                                   -- x.Exists()

def Call.op (x : Nat) : Call → Op
  | .put v => .put x v
  | .assign y => .assign x y
  | .assignTo y => .assign y x
  | .mkRef r => .mkRef r x
  | .mkProxy r p => .mkProxy r x p
  | .at r e => .at r x e
  | .atPath r p => .atPath r x p
  | .atPathDef r p y => .atPathDef r x p y
  | .atPathOr r y p => .atPathDef r y p x
  | .reassign r => .reassign r x
  | .set e y => .set x e y
  | .setIn y e => .set y e x
  | .append y => .append x y
  | .appendTo y => .append y x
  | .erase e => .erase x e
  | .clear => .clear x
  | .look => .look x
  | .exists => .exists x

/-- `o` is `t` or a reference to it. -/
def About (st : St) (o t : Nat) : Prop := st.live o ∧ (st.obj o).home = none ∧ ((st.sl t).plain = true ∧ o = t ∨ st.sl o = .ref t)

theorem About.target {st : St} (hi : Inv0 st) {o t : Nat} (h : About st o t) :
    target o st = if st.live t then .ok t st else .thr .invalidReference st := by
  obtain ⟨h1, _, ⟨h2, rfl⟩ | h2⟩ := h
  · rw [if_pos h1, Ref.target, bind_ok (run_deref h1)]
    cases hs : (st.obj o).slot <;> first | rfl | (rw [St.sl, hs] at h2; cases h2)
  · rw [St.sl] at h2
    rw [Ref.target, bind_ok (run_deref h1)]
    simp only [h2]
    rw [follow, bind_ok (run_deref h1)]
    simp only [h2]
    rcases checkRef_spec hi h1 (t := t) (by rw [St.sl, h2]; rfl) with ⟨h3, h4⟩ | ⟨h3, h4⟩
    · rw [if_pos h3.1, bind_ok h4, bind_ok (run_plain h3.1 h3.2)]; rfl
    · rw [if_neg h3, bind_thr h4]

theorem About.targetCreate {st : St} (hi : Inv0 st) (grow : Nat → Nat → Nat) {o t : Nat} (h : About st o t) :
    targetCreate grow o st = if st.live t then .ok t st else .thr .invalidReference st := by
  rw [← h.target hi, Ref.targetCreate, Ref.target, bind_ok (run_deref h.1), bind_ok (run_deref h.1)]
  rcases h.2.2 with ⟨h2, rfl⟩ | h2
  · cases hs : (st.obj o).slot <;> first | rfl | (rw [St.sl, hs] at h2; cases h2)
  · rw [St.sl] at h2
    simp only [h2]

/-- Both are about the same object, and one of them is a reference. -/
def Both (st : St) (o o' t : Nat) : Prop := About st o t ∧ About st o' t ∧ ∃ q, st.live q ∧ (st.obj q).home = none ∧ st.sl q = .ref t

theorem Both.fr {st st' : St} {o o' t : Nat} (hi : Inv0 st) (h : Both st o o' t) (hf : Fr st st') : Both st' o o' t := by
  obtain ⟨h1, h2, q, h3, h4, h5⟩ := h
  have hq := hf.top q h3 h4
  have hq' : (st'.obj q).home = none := by rw [(hf.old q (hi.objBound q h3) hq).2]; exact h4
  have ha : ∀ o, About st o t → About st' o t := by
    rintro o ⟨g1, g2, g3⟩
    have hl := hf.top o g1 g2
    refine ⟨hl, by rw [(hf.old o (hi.objBound o g1) hl).2]; exact g2, ?_⟩
    rcases g3 with ⟨g3, rfl⟩ | g3
    · left
      obtain ⟨k, k1, k2, k3⟩ := hi.refRd q o h3 (by rw [h5]; rfl)
      exact ⟨((hf.stays o g1 hl).plain g3 k (k3 g1).2).1, rfl⟩
    · exact .inr ((hf.stays o g1 hl).ref t g3)
  exact ⟨ha o h1, ha o' h2, q, hq, hq', (hf.stays q h3 hq).ref t h5⟩

theorem Both.target {st : St} (hi : Inv0 st) {o o' t : Nat} (h : Both st o o' t) : target o st = target o' st := by
  rw [h.1.target hi, h.2.1.target hi]

theorem Both.targetCreate {st : St} (hi : Inv0 st) (grow : Nat → Nat → Nat) {o o' t : Nat} (h : Both st o o' t) :
    targetCreate grow o st = targetCreate grow o' st := by
  rw [h.1.targetCreate hi, h.2.1.targetCreate hi]

theorem bind_congr {st : St} {m m' : M α} {f f' : α → M β} (h : m st = m' st) (h2 : ∀ a st1, m st = .ok a st1 → f a st1 = f' a st1) :
    (m >>= f) st = (m' >>= f') st := by
  rw [run_bind, run_bind, ← h]
  cases hm : m st with
  | ok a st1 => exact h2 a st1 hm
  | thr e st1 => rfl
  | ub => rfl

theorem Both.temp {st st1 : St} {o o' t d : Nat} (hi : Inv0 st) (h : Both st o o' t) (hT : Temp st st1 d) : Both st1 o o' t := by
  obtain ⟨h1, h2, q, h3, h4, h5⟩ := h
  have hlt := hi.tgtBound q t h3 (by rw [h5]; rfl)
  have he : ∀ x, x < st.nObj → st1.obj x = st.obj x := fun x hx => hT.obj x (by rw [hT.num]; omega)
  have ha : ∀ o, About st o t → About st1 o t := by
    rintro o ⟨g1, g2, g3⟩
    have := he o (hi.objBound o g1)
    rw [About, St.live, St.sl, St.sl, this, he t hlt]
    exact ⟨g1, g2, g3⟩
  have := he q (hi.objBound q h3)
  exact ⟨ha o h1, ha o' h2, q, by rw [St.live, this]; exact h3, by rw [this]; exact h4, by rw [St.sl, this]; exact h5⟩

theorem Both.hold {st : St} {o o' t : Nat} (hs : List Nat) (h : Both st o o' t) : Both { st with holds := hs } o o' t := h

/-- Assignment to either of them. -/
theorem assign_dst {st : St} (hi : Inv st) (grow : Nat → Nat → Nat) {o o' t y : Nat} (h : Both st o o' t) (hy : st.live y) (hyh : (st.obj y).home = none) :
    assign grow y o st = assign grow y o' st := by
  rw [assign, assign]
  refine bind_congr rfl fun u st1 h1 => ?_
  have h2 := target_spec hi hy fun _ => hyh
  rw [Tri, h1] at h2
  refine bind_congr rfl fun s st2 h3 => ?_
  rw [run_plain h2.value.1 h2.value.2] at h3
  cases h3
  have hb := h.fr hi.toInv0 h2.turn.bk.toFr
  cases hs : (st1.sl u).sto with
  | none => exact bind_congr (hb.targetCreate h2.turn.inv.toInv0 grow) fun _ _ _ => rfl
  | some a =>
    simp only
    rw [withHold, withHold, bind_congr ((hb.hold _).targetCreate (hold_inv h2.turn.inv (h2.turn.inv.stoLive u a h2.value.1 hs)).toInv0 grow) fun _ _ _ => rfl]

/-- Assignment from either of them. -/
theorem assign_src {st : St} (hi : Inv st) (grow : Nat → Nat → Nat) {o o' t x : Nat} (h : Both st o o' t) :
    assign grow o x st = assign grow o' x st := by
  rw [assign, assign]
  exact bind_congr (h.target hi.toInv0) fun _ _ _ => rfl

theorem About.makeRef {st : St} (hi : Inv0 st) {o t r : Nat} (h : About st o t) :
    makeRef o r st = if st.live t then refInit t r st else .thr .invalidReference st := by
  rw [Ref.makeRef, bind_ok (run_deref h.1)]
  obtain ⟨h1, _, ⟨h2, rfl⟩ | h2⟩ := h
  · rw [if_pos h1]
    cases hs : (st.obj o).slot <;> first | rfl | (rw [St.sl, hs] at h2; cases h2)
  · rw [St.sl] at h2
    simp only [h2]
    rcases checkRef_spec hi h1 (t := t) (by rw [St.sl, h2]; rfl) with ⟨h3, h4⟩ | ⟨h3, h4⟩
    · rw [if_pos h3.1, bind_ok h4, bind_ok (run_plain h3.1 h3.2)]
    · rw [if_neg h3, bind_thr h4]

theorem About.makeProxy {st : St} (hi : Inv0 st) {o t r : Nat} {p : VPath} (h : About st o t) :
    makeProxy o r p st = if st.live t then proxyInit t r p st else .thr .invalidReference st := by
  rw [Ref.makeProxy, bind_ok (run_deref h.1)]
  obtain ⟨h1, _, ⟨h2, rfl⟩ | h2⟩ := h
  · rw [if_pos h1]
    cases hs : (st.obj o).slot <;> first | rfl | (rw [St.sl, hs] at h2; cases h2)
  · rw [St.sl] at h2
    simp only [h2]
    rcases checkRef_spec hi h1 (t := t) (by rw [St.sl, h2]; rfl) with ⟨h3, h4⟩ | ⟨h3, h4⟩
    · rw [if_pos h3.1, bind_ok h4]
    · rw [if_neg h3, bind_thr h4]

theorem About.refAt {st : St} (hi : Inv0 st) {o t r : Nat} {e : PathElem} (h : About st o t) :
    refAt o r e st = (Ref.target o >>= fun t => refAt.go r e t) st := by
  rw [Ref.refAt, bind_ok (run_deref h.1)]
  rw [run_bind, h.target hi]
  obtain ⟨h1, _, ⟨h2, rfl⟩ | h2⟩ := h
  · rw [if_pos h1]
    cases hs : (st.obj o).slot <;> first | rfl | (rw [St.sl, hs] at h2; cases h2)
  · have := (show About st o t from ⟨h1, ‹_›, .inr h2⟩).target hi
    rw [Ref.target, bind_ok (run_deref h1)] at this
    rw [St.sl] at h2
    simp only [h2] at this ⊢
    rw [run_bind, this]

theorem About.refAtPath {st : St} (hi : Inv0 st) {o t r : Nat} {p : VPath} (hp : p ≠ []) (h : About st o t) :
    refAtPath o r p st = (Ref.target o >>= fun t => refAtPath.walk r t p) st := by
  rw [Ref.refAtPath, if_neg hp, bind_ok (run_deref h.1)]
  rw [run_bind, h.target hi]
  obtain ⟨h1, _, ⟨h2, rfl⟩ | h2⟩ := h
  · rw [if_pos h1]
    cases hs : (st.obj o).slot <;> first | rfl | (rw [St.sl, hs] at h2; cases h2)
  · have := (show About st o t from ⟨h1, ‹_›, .inr h2⟩).target hi
    rw [Ref.target, bind_ok (run_deref h1)] at this
    rw [St.sl] at h2
    simp only [h2] at this ⊢
    rw [run_bind, this]

theorem About.existsObj {st : St} (hi : Inv0 st) {o t : Nat} (h : About st o t) : existsObj o st = .ok (decide (st.live t)) st := by
  rw [Ref.existsObj, bind_ok (run_deref h.1)]
  obtain ⟨h1, _, ⟨h2, rfl⟩ | h2⟩ := h
  · rw [decide_eq_true h1]
    cases hs : (st.obj o).slot <;> first | rfl | (rw [St.sl, hs] at h2; cases h2)
  · obtain ⟨k, h3, h4, _⟩ := hi.refRd o t h1 (by rw [h2]; rfl)
    rw [St.sl] at h2
    simp only [h2, h3]
    show Res.ok (st.valid k) st = _
    congr 1
    rw [Bool.eq_iff_iff, decide_eq_true_iff]; exact h4

/-- A function of a local variable. -/
theorem temp_congr {st : St} (hi : Inv st) {f g : Nat → M α} (h : ∀ st1, Temp st st1 st.nObj → f st.nObj st1 = g st.nObj st1) :
    withTemp f st = withTemp g st := by
  rw [withTemp, withTemp, h _ (temp_temp hi)]

theorem declare_congr {st : St} (hi : Inv st) {r : Nat} {f g : Nat → M Unit} (h : ∀ st1, Temp st st1 st.nObj → f st.nObj st1 = g st.nObj st1) :
    declare r f st = declare r g st := by
  rw [declare, declare, h _ (temp_temp hi)]

theorem var_congr {st : St} {x : Nat} {f g : Nat → M View} (h : ∀ o, st.env x = some o → f o st = g o st) : var x f st = var x g st := by
  rw [var, var]
  cases hx : st.env x with
  | none => rfl
  | some o => exact h o hx

theorem Both.step {st : St} (h : Ok st) (grow : Nat → Nat → Nat) {v w o o' t : Nat} (hb : Both st o o' t) (hv : st.env v = some o) (hw : st.env w = some o') (c : Call) :
    step grow (c.op v) st = step grow (c.op w) st := by
  have hi := h.inv
  have hvo : ∀ f : Nat → M View, var v f st = f o st := fun f => by rw [var, hv]
  have hwo : ∀ f : Nat → M View, var w f st = f o' st := fun f => by rw [var, hw]
  have hlive : ∀ {st1 : St} {d : Nat}, Temp st st1 d → ∀ {y q : Nat}, st.env y = some q → st1.live q ∧ (st1.obj q).home = none ∧ q ≠ d := by
    intro st1 d hT y q hq
    obtain ⟨h1, h2⟩ := hi.env y q hq
    obtain ⟨h3, h4, h5⟩ := hT.live hi.toInv0 h1
    exact ⟨h3, by rw [h4]; exact h2, h5⟩
  cases c with
  | put l =>
    simp only [Call.op, Ref.step, hvo, hwo]
    exact bind_congr (hb.targetCreate hi.toInv0 grow) fun _ _ _ => rfl
  | assign y =>
    simp only [Call.op, Ref.step, hvo, hwo]
    refine var_congr fun q hq => bind_congr ?_ fun _ _ _ => rfl
    exact assign_dst hi grow hb (hi.env y q hq).1 (hi.env y q hq).2
  | assignTo y =>
    simp only [Call.op, Ref.step]
    refine var_congr fun q hq => ?_
    rw [hvo, hwo]
    exact bind_congr (assign_src hi grow hb) fun _ _ _ => rfl
  | mkRef r =>
    simp only [Call.op, Ref.step, hvo, hwo]
    refine declare_congr hi fun st1 hT => ?_
    have hb1 := hb.temp hi.toInv0 hT
    rw [hb1.1.makeRef hT.inv.toInv0, hb1.2.1.makeRef hT.inv.toInv0]
  | mkProxy r p =>
    simp only [Call.op, Ref.step, hvo, hwo]
    refine declare_congr hi fun st1 hT => ?_
    have hb1 := hb.temp hi.toInv0 hT
    rw [hb1.1.makeProxy hT.inv.toInv0, hb1.2.1.makeProxy hT.inv.toInv0]
  | «at» r e =>
    simp only [Call.op, Ref.step, hvo, hwo]
    refine declare_congr hi fun st1 hT => ?_
    have hb1 := hb.temp hi.toInv0 hT
    rw [hb1.1.refAt hT.inv.toInv0, hb1.2.1.refAt hT.inv.toInv0]
    exact bind_congr (hb1.target hT.inv.toInv0) fun _ _ _ => rfl
  | atPath r p =>
    simp only [Call.op, Ref.step, hvo, hwo]
    refine declare_congr hi fun st1 hT => ?_
    have hb1 := hb.temp hi.toInv0 hT
    by_cases hp : p = []
    · subst hp
      rw [refAtPath, refAtPath, if_pos rfl, if_pos rfl, hb1.1.makeRef hT.inv.toInv0, hb1.2.1.makeRef hT.inv.toInv0]
    · rw [hb1.1.refAtPath hT.inv.toInv0 hp, hb1.2.1.refAtPath hT.inv.toInv0 hp]
      exact bind_congr (hb1.target hT.inv.toInv0) fun _ _ _ => rfl
  | atPathDef r p y =>
    simp only [Call.op, Ref.step, hvo, hwo]
    refine var_congr fun q hq => declare_congr hi fun st1 hT => temp_congr hT.inv fun st2 hT2 => ?_
    have hb2 := (hb.temp hi.toInv0 hT).temp hT.inv.toInv0 hT2
    obtain ⟨g1, g2, g3⟩ := hlive hT hq
    obtain ⟨k1, k2, k3⟩ := hT2.live hT.inv.toInv0 g1
    refine bind_congr rfl fun _ st3 h3 => ?_
    have h4 := assign_temp hT2.inv grow hT2.fresh k1 (by rw [k2]; exact g2) k3
    rw [Tri, h3] at h4
    have hb3 := hb2.fr hT2.inv.toInv0 h4.bk.toFr
    have hi3 := h4.inv.toInv0
    by_cases hp : p = []
    · subst hp
      rw [refAtPathDef, refAtPathDef, if_pos rfl, if_pos rfl, hb3.1.makeRef hi3, hb3.2.1.makeRef hi3]
    · rw [refAtPathDef, refAtPathDef, if_neg hp, if_neg hp]
      exact bind_congr (hb3.targetCreate hi3 grow) fun _ _ _ => rfl
  | atPathOr r y p =>
    simp only [Call.op, Ref.step]
    refine var_congr fun q hq => ?_
    rw [hvo, hwo]
    refine declare_congr hi fun st1 hT => temp_congr hT.inv fun st2 hT2 => ?_
    exact bind_congr (assign_src hT2.inv grow ((hb.temp hi.toInv0 hT).temp hT.inv.toInv0 hT2)) fun _ _ _ => rfl
  | reassign r =>
    simp only [Call.op, Ref.step]
    refine var_congr fun q hq => ?_
    rw [hvo, hwo]
    refine bind_congr rfl fun a st1 h1 => ?_
    rw [run_deref (hi.env r q hq).1] at h1
    cases h1
    by_cases hp : (st.obj q).slot.plain = true
    · rw [if_pos hp, if_pos hp]
    · rw [if_neg hp, if_neg hp]
      refine bind_congr ?_ fun _ _ _ => rfl
      rw [hb.1.makeRef hi.toInv0, hb.2.1.makeRef hi.toInv0]
  | set e y =>
    simp only [Call.op, Ref.step, hvo, hwo]
    refine var_congr fun q hq => temp_congr hi fun st1 hT => ?_
    obtain ⟨g1, g2, g3⟩ := hlive hT hq
    refine bind_congr rfl fun _ st3 h3 => ?_
    have h4 := assign_temp hT.inv grow hT.fresh g1 g2 g3
    rw [Tri, h3] at h4
    exact bind_congr (((hb.temp hi.toInv0 hT).fr hT.inv.toInv0 h4.bk.toFr).targetCreate h4.inv.toInv0 grow) fun _ _ _ => rfl
  | setIn y e =>
    simp only [Call.op, Ref.step]
    refine var_congr fun q hq => ?_
    rw [hvo, hwo]
    refine temp_congr hi fun st1 hT => ?_
    exact bind_congr (assign_src hT.inv grow (hb.temp hi.toInv0 hT)) fun _ _ _ => rfl
  | append y =>
    simp only [Call.op, Ref.step, hvo, hwo]
    refine var_congr fun q hq => temp_congr hi fun st1 hT => ?_
    obtain ⟨g1, g2, g3⟩ := hlive hT hq
    refine bind_congr rfl fun _ st3 h3 => ?_
    have h4 := assign_temp hT.inv grow hT.fresh g1 g2 g3
    rw [Tri, h3] at h4
    exact bind_congr (((hb.temp hi.toInv0 hT).fr hT.inv.toInv0 h4.bk.toFr).targetCreate h4.inv.toInv0 grow) fun _ _ _ => rfl
  | appendTo y =>
    simp only [Call.op, Ref.step]
    refine var_congr fun q hq => ?_
    rw [hvo, hwo]
    refine temp_congr hi fun st1 hT => ?_
    exact bind_congr (assign_src hT.inv grow (hb.temp hi.toInv0 hT)) fun _ _ _ => rfl
  | erase e =>
    simp only [Call.op, Ref.step, hvo, hwo]
    exact bind_congr (hb.target hi.toInv0) fun _ _ _ => rfl
  | clear =>
    simp only [Call.op, Ref.step, hvo, hwo]
    exact bind_congr (hb.target hi.toInv0) fun _ _ _ => rfl
  | look =>
    simp only [Call.op, Ref.step, hvo, hwo]
    exact bind_congr (hb.target hi.toInv0) fun _ _ _ => rfl
  | «exists» =>
    simp only [Call.op, Ref.step, hvo, hwo]
    exact bind_congr (by rw [hb.1.existsObj hi.toInv0, hb.2.1.existsObj hi.toInv0]) fun _ _ _ => rfl

theorem Names.about {st : St} (hi : Inv0 st) {v t o : Nat} (hv : st.env v = some o) (h : Names st v t) : About st o t := by
  obtain ⟨o', h1, h2⟩ := h
  rw [hv] at h1; cases h1
  exact ⟨(hi.env v o hv).1, (hi.env v o hv).2, h2⟩

/-- **C94.** What is done with a reference is done with its target: any operation on a reference has the effect and the
result of the same operation on the variable, or on another reference to the same object. -/
theorem through_ref {grow : Nat → Nat → Nat} {st : St} (h : Runs grow st) {v w t : Nat} (hv : Names st v t) (hw : Names st w t) (c : Call) :
    step grow (c.op v) st = step grow (c.op w) st := by
  have hk := runs_ok h
  have hi := hk.inv.toInv0
  obtain ⟨o, h1, h2⟩ := hv
  obtain ⟨o', h3, h4⟩ := hw
  have ha : About st o t := ⟨(hi.env v o h1).1, (hi.env v o h1).2, h2⟩
  have ha' : About st o' t := ⟨(hi.env w o' h3).1, (hi.env w o' h3).2, h4⟩
  rcases h2 with ⟨h5, h6⟩ | h5
  · rcases h4 with ⟨_, h7⟩ | h7
    · subst h6; subst h7
      rw [hi.envInj v w _ h1 h3]
    · exact Both.step hk grow ⟨ha, ha', o', ha'.1, ha'.2.1, h7⟩ h1 h3 c
  · exact Both.step hk grow ⟨ha, ha', o, ha.1, ha.2.1, h5⟩ h1 h3 c

end Verif.Ref
