import Verif.Ref.EffectProps
/-!
# What new references refer to, and writing through a reference to what does not exist yet (C94, C96)
-/

namespace Verif.Ref
open Verif

/-! ## New references -/

/-- The variable `r` was declared, its object is `q`, and nothing else has changed: all values are what they were. -/
structure NewRef (st st' : St) (r q : Nat) : Prop where
  env : st'.env r = some q
  others : ∀ v, v ≠ r → st'.env v = st.env v
  live : st'.live q
  new : ¬ st.live q
  same : ∀ y, st.live y → st'.live y ∧ st'.sl y = st.sl y
  store : ∀ s, st.liveS s → st'.liveS s ∧ (st'.store s).cell = (st.store s).cell

theorem newRef {st st1 st2 : St} {r : Nat} (hi : Inv st) (hT : Temp st st1 st.nObj) (h : Turn st1 st2 st.nObj) :
    NewRef st { st2 with env := fun y => if y = r then some st.nObj else st2.env y } r st.nObj := by
  have hlive : ∀ y, st.live y → st2.live y ∧ st2.sl y = st.sl y := by
    intro y hy
    obtain ⟨h1, h2, h3⟩ := hT.live hi.toInv0 hy
    have hl : st2.live y := Decidable.byContradiction fun hd => by
      obtain ⟨_, t, p, k, _, h4, _⟩ := h.dead y h1 hd
      rw [hT.fresh.null] at h4; cases h4
    exact ⟨hl, by rw [h.others y h3 hl, St.sl, h2]⟩
  refine ⟨by simp, fun v hv => ?_, h.bk.top _ hT.fresh.live hT.fresh.home, fun hl => ?_, hlive, fun s hs => ⟨?_, ?_⟩⟩
  · simp only [if_neg hv]; rw [h.bk.env, hT.env]
  · have := hi.objBound _ hl; omega
  · show st2.liveS s
    rcases hi.owned s hs with h1 | ⟨x, h1, h2⟩
    · exact h.inv.holdLive s (by rw [h.bk.holds, hT.holds]; exact h1)
    · obtain ⟨h3, h4⟩ := hlive x h1
      exact h.inv.stoLive x s h3 (by rw [h4]; exact h2)
  · show (st2.store s).cell = _
    rw [h.cells, hT.store]

theorem declare_refInit {st : St} (hi : Inv st) {r t : Nat} {f : Nat → M Unit} (hr : st.env r = none) (ht : Value st t)
    (hf : ∀ st1, Temp st st1 st.nObj → f st.nObj st1 = refInit t st.nObj st1) :
    ∃ st' q, declare r f st = .ok .unit st' ∧ NewRef st st' r q ∧ st'.sl q = .ref t := by
  have hT := temp_temp hi
  have hf := hf _ hT
  rw [declare, hr]
  simp only [hf]
  generalize st.new none [.null] = st1 at hT
  obtain ⟨_, _, htd⟩ := hT.live hi.toInv0 ht.1
  rcases refInit_spec hT.inv hT.fresh.like (hT.value hi.toInv0 ht) htd with ⟨_, h⟩ | ⟨st2, h1, h2, h3, h4⟩
  · exact absurd h (fresh_lost hT.fresh (hT.value hi.toInv0 ht).1)
  · simp only [h1]
    exact ⟨_, _, rfl, newRef hi hT h2, h3⟩

theorem declare_proxyInit {st : St} (hi : Inv st) {r t : Nat} {f : Nat → M Unit} (p : VPath) (hr : st.env r = none) (ht : Value st t)
    (hf : ∀ st1, Temp st st1 st.nObj → f st.nObj st1 = proxyInit t st.nObj p st1) :
    ∃ st' q k, declare r f st = .ok .unit st' ∧ NewRef st st' r q ∧ st'.sl q = .proxy t p k := by
  have hT := temp_temp hi
  have hf := hf _ hT
  rw [declare, hr]
  simp only [hf]
  generalize st.new none [.null] = st1 at hT
  obtain ⟨_, _, htd⟩ := hT.live hi.toInv0 ht.1
  rcases proxyInit_spec hT.inv p hT.fresh.like (hT.value hi.toInv0 ht) htd with ⟨_, h⟩ | ⟨st2, h1, h2, h3, h4⟩
  · exact absurd h (fresh_lost hT.fresh (hT.value hi.toInv0 ht).1)
  · simp only [h1]
    exact ⟨_, _, _, rfl, newRef hi hT h2, h3⟩

/-- **C94.** `Ref` of a variable, or of a reference to it, refers to that variable. -/
theorem ref_refers {grow : Nat → Nat → Nat} {st : St} (h : Runs grow st) {r v t : Nat} (hr : st.env r = none) (hv : Names st v t) (hl : st.live t) :
    ∃ st' q, step grow (.mkRef r v) st = .ok .unit st' ∧ NewRef st st' r q ∧ st'.sl q = .ref t := by
  have hi := (runs_ok h).inv
  obtain ⟨o, hvo, _⟩ := id hv
  have ha := hv.about hi.toInv0 hvo
  rw [step, var, hvo]
  refine declare_refInit hi hr ⟨hl, hv.plain hi.toInv0 hl⟩ fun st1 hT => ?_
  rw [(hT.about hi.toInv0 ha hl).makeRef hT.inv.toInv0, if_pos (hT.live hi.toInv0 hl).1]

/-- A proxy: a reference that was not resolved yet. -/
theorem proxy_ok {st : St} (hi : Inv st) {x o t : Nat} {p : VPath} {k : Option Nat} (hx : st.env x = some o) (ho : st.sl o = .proxy t p k) (hl : st.live t) :
    st.live o ∧ Value st t ∧ ∀ st1, Temp st st1 st.nObj → st1.live o ∧ st1.sl o = .proxy t p k ∧ Value st1 t ∧ checkRef o st1 = .ok () st1 ∧ o ≠ st.nObj := by
  have hlo := (hi.env x o hx).1
  obtain ⟨_, _, _, h3⟩ := hi.refRd o t hlo (by rw [ho]; rfl)
  have ht : Value st t := ⟨hl, (h3 hl).1⟩
  refine ⟨hlo, ht, fun st1 hT => ?_⟩
  obtain ⟨h4, h5, h6⟩ := hT.live hi.toInv0 hlo
  have h7 : st1.sl o = .proxy t p k := by rw [St.sl, h5]; exact ho
  have h8 := hT.value hi.toInv0 ht
  refine ⟨h4, h7, h8, ?_, h6⟩
  rcases checkRef_spec hT.inv.toInv0 h4 (t := t) (by rw [h7]; rfl) with ⟨_, h⟩ | ⟨h, _⟩
  · exact h
  · exact absurd h8.1 h

/-- **C94.** `Ref` of a reference that is not resolved is a reference to the same path of the same value. -/
theorem ref_refers_path {grow : Nat → Nat → Nat} {st : St} (h : Runs grow st) {r x o t : Nat} {p : VPath} {k : Option Nat} (hr : st.env r = none)
    (hx : st.env x = some o) (ho : st.sl o = .proxy t p k) (hl : st.live t) :
    ∃ st' q k', step grow (.mkRef r x) st = .ok .unit st' ∧ NewRef st st' r q ∧ st'.sl q = .proxy t p k' := by
  have hi := (runs_ok h).inv
  obtain ⟨h1, h2, h3⟩ := proxy_ok hi hx ho hl
  rw [step, var, hx]
  refine declare_proxyInit hi p hr h2 fun st1 hT => ?_
  obtain ⟨h4, h5, h6, h7, h8⟩ := h3 st1 hT
  rw [St.sl] at h5
  rw [makeRef, bind_ok (run_deref h4)]
  simp only [h5]
  rw [bind_ok h7, if_neg h8]

/-- **C94.** A reference made for a path refers to that path of the value. -/
theorem path_refers {grow : Nat → Nat → Nat} {st : St} (h : Runs grow st) {r v t : Nat} (p : VPath) (hr : st.env r = none) (hv : Names st v t) (hl : st.live t) :
    ∃ st' q k, step grow (.mkProxy r v p) st = .ok .unit st' ∧ NewRef st st' r q ∧ st'.sl q = .proxy t p k := by
  have hi := (runs_ok h).inv
  obtain ⟨o, hvo, _⟩ := id hv
  have ha := hv.about hi.toInv0 hvo
  rw [step, var, hvo]
  refine declare_proxyInit hi p hr ⟨hl, hv.plain hi.toInv0 hl⟩ fun st1 hT => ?_
  rw [(hT.about hi.toInv0 ha hl).makeProxy hT.inv.toInv0, if_pos (hT.live hi.toInv0 hl).1]

/-- **C94.** … also if the value does not exist yet: the paths are joined. -/
theorem path_refers_path {grow : Nat → Nat → Nat} {st : St} (h : Runs grow st) {r x o t : Nat} {p : VPath} {k : Option Nat} (p' : VPath) (hr : st.env r = none)
    (hx : st.env x = some o) (ho : st.sl o = .proxy t p k) (hl : st.live t) :
    ∃ st' q k', step grow (.mkProxy r x p') st = .ok .unit st' ∧ NewRef st st' r q ∧ st'.sl q = .proxy t (p ++ p') k' := by
  have hi := (runs_ok h).inv
  obtain ⟨h1, h2, h3⟩ := proxy_ok hi hx ho hl
  rw [step, var, hx]
  refine declare_proxyInit hi _ hr h2 fun st1 hT => ?_
  obtain ⟨h4, h5, h6, h7, h8⟩ := h3 st1 hT
  rw [St.sl] at h5
  rw [makeProxy, bind_ok (run_deref h4)]
  simp only [h5]
  rw [bind_ok h7]

theorem go_eq {st : St} (hi : Inv0 st) {t : Nat} (ht : Value st t) (q : Nat) (e : PathElem) :
    refAt.go q e t st = match elem? st t e with
      | some c => refInit c q st
      | none => if Takes (st.sl t) e then proxyInit t q [e] st else .thr .unexpectedType st := by
  rw [refAt.go, bind_ok (child_eq hi ht e)]
  cases elem? st t e with
  | some c => rfl
  | none =>
    simp only
    rw [bind_ok (run_plain ht.1 ht.2)]
    cases st.sl t <;> cases e <;> rfl

/-- **C94.** `x[e]` refers to the element at `e`. -/
theorem at_refers {grow : Nat → Nat → Nat} {st : St} (h : Runs grow st) {r v t c : Nat} {e : PathElem} (hr : st.env r = none) (hv : Names st v t) (hl : st.live t)
    (he : elem? st t e = some c) : ∃ st' q, step grow (.at r v e) st = .ok .unit st' ∧ NewRef st st' r q ∧ st'.sl q = .ref c := by
  have hi := (runs_ok h).inv
  obtain ⟨o, hvo, _⟩ := id hv
  have ha := hv.about hi.toInv0 hvo
  have ht : Value st t := ⟨hl, hv.plain hi.toInv0 hl⟩
  obtain ⟨s, h1, h2⟩ := elem_mem hi.toInv0 ht he
  rw [step, var, hvo]
  refine declare_refInit hi hr (elem_value hi.toInv0 ht h1 h2) fun st1 hT => ?_
  have ha1 := hT.about hi.toInv0 ha hl
  have ht1 := hT.value hi.toInv0 ht
  rw [ha1.refAt hT.inv.toInv0, bind_ok (by rw [ha1.target hT.inv.toInv0, if_pos ht1.1]), go_eq hT.inv.toInv0 ht1, hT.elem hi.toInv0 ht, he]

/-- **C94.** If there is no such element but there could be one, nothing is created; the reference stands for the element. -/
theorem at_refers_new {grow : Nat → Nat → Nat} {st : St} (h : Runs grow st) {r v t : Nat} {e : PathElem} (hr : st.env r = none) (hv : Names st v t) (hl : st.live t)
    (he : elem? st t e = none) (hT : Takes (st.sl t) e = true) :
    ∃ st' q k, step grow (.at r v e) st = .ok .unit st' ∧ NewRef st st' r q ∧ st'.sl q = .proxy t [e] k := by
  have hi := (runs_ok h).inv
  obtain ⟨o, hvo, _⟩ := id hv
  have ha := hv.about hi.toInv0 hvo
  have ht : Value st t := ⟨hl, hv.plain hi.toInv0 hl⟩
  rw [step, var, hvo]
  refine declare_proxyInit hi _ hr ht fun st1 hT1 => ?_
  have ha1 := hT1.about hi.toInv0 ha hl
  have ht1 := hT1.value hi.toInv0 ht
  rw [ha1.refAt hT1.inv.toInv0, bind_ok (by rw [ha1.target hT1.inv.toInv0, if_pos ht1.1]), go_eq hT1.inv.toInv0 ht1, hT1.elem hi.toInv0 ht, he]
  simp only
  rw [St.sl, (hT1.live hi.toInv0 hl).2.1, ← St.sl, if_pos hT]

/-- **C94.** If there can be no such element, an exception says so. -/
theorem at_wrong {grow : Nat → Nat → Nat} {st : St} (h : Runs grow st) {r v t : Nat} {e : PathElem} (hr : st.env r = none) (hv : Names st v t) (hl : st.live t)
    (hT : Takes (st.sl t) e = false) : ∃ st', step grow (.at r v e) st = .thr .unexpectedType st' := by
  have hi := (runs_ok h).inv
  obtain ⟨o, hvo, _⟩ := id hv
  have ha := hv.about hi.toInv0 hvo
  have ht : Value st t := ⟨hl, hv.plain hi.toInv0 hl⟩
  have hT1 := temp_temp hi
  rw [step, var, hvo]
  simp only
  rw [declare, hr]
  simp only
  generalize st.new none [.null] = st1 at hT1
  have ha1 := hT1.about hi.toInv0 ha hl
  have ht1 := hT1.value hi.toInv0 ht
  have hs1 : st1.sl t = st.sl t := by rw [St.sl, (hT1.live hi.toInv0 hl).2.1]
  have hel : elem? st1 t e = none := by
    unfold elem?
    rw [hs1]
    cases hs : st.sl t <;> rw [hs] at hT <;> cases e <;> first | rfl | cases hT
  have hrun : refAt o st.nObj e st1 = .thr .unexpectedType st1 := by
    rw [ha1.refAt hT1.inv.toInv0, bind_ok (by rw [ha1.target hT1.inv.toInv0, if_pos ht1.1]), go_eq hT1.inv.toInv0 ht1, hel]
    simp only
    rw [hs1, hT]; rfl
  simp only [hrun]
  exact ⟨_, rfl⟩

/-- **C94.** `x[e]` of a reference that is not resolved, and cannot be resolved yet, stands for the longer path. -/
theorem at_refers_path {grow : Nat → Nat → Nat} {st : St} (h : Runs grow st) {r x o t : Nat} {p : VPath} {k : Option Nat} {e : PathElem} (hr : st.env r = none)
    (hx : st.env x = some o) (ho : st.sl o = .proxy t p k) (hl : st.live t) (hp : path? st t p = none) :
    ∃ st' q k', step grow (.at r x e) st = .ok .unit st' ∧ NewRef st st' r q ∧ st'.sl q = .proxy t (p ++ [e]) k' := by
  have hi := (runs_ok h).inv
  obtain ⟨h1, h2, h3⟩ := proxy_ok hi hx ho hl
  rw [step, var, hx]
  refine declare_proxyInit hi _ hr h2 fun st1 hT => ?_
  obtain ⟨h4, h5, h6, h7, h8⟩ := h3 st1 hT
  rw [St.sl] at h5
  have hc : resolveCheck o t p st1 = .ok false st1 := by
    rw [resolveCheck, bind_ok h7, bind_ok (find_eq hT.inv.toInv0 p h6), hT.path hi.toInv0 p h2, hp]; rfl
  rw [refAt, bind_ok (run_deref h4)]
  simp only [h5]
  rw [bind_ok hc]; rfl

theorem walk_eq {st : St} (hi : Inv0 st) (q : Nat) : ∀ (p : VPath) {t : Nat}, Value st t →
    (∃ c, path? st t p = some c ∧ refAtPath.walk q t p st = refInit c q st) ∨
    (∃ a e b c, p = a ++ e :: b ∧ path? st t a = some c ∧ elem? st c e = none ∧ refAtPath.walk q t p st = proxyInit c q (e :: b) st)
  | [], t, _ => .inl ⟨t, rfl, rfl⟩
  | e :: p, t, ht => by
    have hrun : refAtPath.walk q t (e :: p) st = match elem? st t e with
        | some c => refAtPath.walk q c p st
        | none => proxyInit t q (e :: p) st := by
      rw [refAtPath.walk, bind_ok (child_eq hi ht e)]
      cases elem? st t e <;> rfl
    cases he : elem? st t e with
    | none => exact .inr ⟨[], e, p, t, rfl, rfl, he, by rw [hrun, he]⟩
    | some c =>
      obtain ⟨s, h1, h2⟩ := elem_mem hi ht he
      rw [he] at hrun
      rcases walk_eq hi q p (elem_value hi ht h1 h2) with ⟨d, h3, h4⟩ | ⟨a, e', b, d, h3, h4, h5, h6⟩
      · exact .inl ⟨d, by rw [path?, he]; exact h3, by rw [hrun]; exact h4⟩
      · exact .inr ⟨e :: a, e', b, d, by rw [h3]; rfl, by rw [path?, he]; exact h4, h5, by rw [hrun]; exact h6⟩

/-- A path ends in one place. -/
theorem split_unique {st : St} : ∀ {a a' b b' : VPath} {e e' : PathElem} {t c c' : Nat}, path? st t a = some c → elem? st c e = none →
    path? st t a' = some c' → elem? st c' e' = none → a ++ e :: b = a' ++ e' :: b' → a = a' ∧ e = e' ∧ b = b'
  | [], [], _, _, _, _, _, _, _, _, _, _, _, h => by
    rw [List.nil_append, List.nil_append, List.cons.injEq] at h
    exact ⟨rfl, h⟩
  | [], f :: a', _, _, _, _, _, _, _, h1, h2, h3, _, h => by
    rw [List.nil_append, List.cons_append, List.cons.injEq] at h
    cases h1
    rw [path?, ← h.1, h2] at h3; cases h3
  | f :: a, [], _, _, _, _, _, _, _, h1, _, h3, h4, h => by
    rw [List.nil_append, List.cons_append, List.cons.injEq] at h
    cases h3
    rw [path?, h.1, h4] at h1; cases h1
  | f :: a, f' :: a', _, _, _, _, _, _, _, h1, h2, h3, h4, h => by
    rw [List.cons_append, List.cons_append, List.cons.injEq] at h
    rw [path?, Option.bind_eq_some_iff] at h1 h3
    obtain ⟨y, g1, g2⟩ := h1
    obtain ⟨y', g3, g4⟩ := h3
    rw [← h.1, g1] at g3
    cases g3
    obtain ⟨k1, k2⟩ := split_unique g2 h2 g4 h4 h.2
    exact ⟨by rw [k1, h.1], k2⟩

theorem atPath_eq {st st1 : St} (hi : Inv0 st) {o t q : Nat} (ha : About st o t) (hl : st.live t) (hT : Temp st st1 q) (p : VPath) :
    refAtPath o q p st1 = refAtPath.walk q t p st1 := by
  have ha1 := hT.about hi ha hl
  have hl1 := (hT.live hi hl).1
  by_cases hp : p = []
  · subst hp
    rw [refAtPath, if_pos rfl, ha1.makeRef hT.inv.toInv0, if_pos hl1]; rfl
  · rw [ha1.refAtPath hT.inv.toInv0 hp, bind_ok (by rw [ha1.target hT.inv.toInv0, if_pos hl1])]

/-- **C94.** `x.AtPath(p)` refers to what the path leads to. -/
theorem atPath_refers {grow : Nat → Nat → Nat} {st : St} (h : Runs grow st) {r v t c : Nat} {p : VPath} (hr : st.env r = none) (hv : Names st v t) (hl : st.live t)
    (hp : path? st t p = some c) : ∃ st' q, step grow (.atPath r v p) st = .ok .unit st' ∧ NewRef st st' r q ∧ st'.sl q = .ref c := by
  have hi := (runs_ok h).inv
  obtain ⟨o, hvo, _⟩ := id hv
  have ha := hv.about hi.toInv0 hvo
  have ht : Value st t := ⟨hl, hv.plain hi.toInv0 hl⟩
  rw [step, var, hvo]
  refine declare_refInit hi hr ((path_reach hi.toInv0 p ht hp).value hi.toInv0 ht) fun st1 hT => ?_
  have ht1 := hT.value hi.toInv0 ht
  rw [atPath_eq hi.toInv0 ha hl hT p]
  have hp1 := hT.path hi.toInv0 p ht
  rw [hp] at hp1
  rcases walk_eq hT.inv.toInv0 st.nObj p ht1 with ⟨d, h3, h4⟩ | ⟨a, e, b, d, h3, h4, h5, h6⟩
  · rw [hp1] at h3; cases h3; exact h4
  · rw [h3, path_append, h4, Option.bind_some, path?, h5] at hp1
    cases hp1

/-- **C94.** If the path ends too early nothing is created; the reference stands for the rest of the path, from where it ends. -/
theorem atPath_refers_new {grow : Nat → Nat → Nat} {st : St} (h : Runs grow st) {r v t : Nat} {p : VPath} (hr : st.env r = none) (hv : Names st v t) (hl : st.live t)
    (hp : path? st t p = none) :
    ∃ st' q a e b c k, step grow (.atPath r v p) st = .ok .unit st' ∧ NewRef st st' r q ∧ p = a ++ e :: b ∧ path? st t a = some c ∧ elem? st c e = none ∧
      st'.sl q = .proxy c (e :: b) k := by
  have hi := (runs_ok h).inv
  obtain ⟨o, hvo, _⟩ := id hv
  have ha := hv.about hi.toInv0 hvo
  have ht : Value st t := ⟨hl, hv.plain hi.toInv0 hl⟩
  rcases walk_eq hi.toInv0 st.nObj p ht with ⟨d, h3, h4⟩ | ⟨a, e, b, c, h3, h4, h5, _⟩
  · rw [hp] at h3; cases h3
  have hc := (path_reach hi.toInv0 a ht h4).value hi.toInv0 ht
  obtain ⟨st', q, k, g1, g2, g3⟩ := declare_proxyInit hi (r := r) (f := fun q => refAtPath o q p) (e :: b) hr hc fun st1 hT => by
    rw [atPath_eq hi.toInv0 ha hl hT p]
    rcases walk_eq hT.inv.toInv0 st.nObj p (hT.value hi.toInv0 ht) with ⟨d, k3, _⟩ | ⟨a', e', b', c', k3, k4, k5, k6⟩
    · rw [hT.path hi.toInv0 p ht, hp] at k3; cases k3
    · rw [hT.path hi.toInv0 a' ht] at k4
      have hc' := (path_reach hi.toInv0 a' ht k4).value hi.toInv0 ht
      rw [hT.elem hi.toInv0 hc'] at k5
      obtain ⟨rfl, he, rfl⟩ := split_unique h4 h5 k4 k5 (h3.symm.trans k3)
      cases he
      rw [h4] at k4; cases k4
      exact k6
  refine ⟨st', q, a, e, b, c, k, ?_, g2, h3, h4, h5, g3⟩
  rw [step, var, hvo]
  exact g1

/-- **C94.** `AtPath` of a reference that is not resolved, and cannot be resolved yet, stands for the longer path. -/
theorem atPath_refers_path {grow : Nat → Nat → Nat} {st : St} (h : Runs grow st) {r x o t : Nat} {q p : VPath} {k : Option Nat} (hr : st.env r = none)
    (hx : st.env x = some o) (ho : st.sl o = .proxy t q k) (hl : st.live t) (hq : path? st t q = none) :
    ∃ st' y k', step grow (.atPath r x p) st = .ok .unit st' ∧ NewRef st st' r y ∧ st'.sl y = .proxy t (q ++ p) k' := by
  have hi := (runs_ok h).inv
  obtain ⟨h1, h2, h3⟩ := proxy_ok hi hx ho hl
  rw [step, var, hx]
  refine declare_proxyInit hi _ hr h2 fun st1 hT => ?_
  obtain ⟨h4, h5, h6, h7, h8⟩ := h3 st1 hT
  rw [St.sl] at h5
  by_cases hp : p = []
  · rw [refAtPath, if_pos hp, makeRef, bind_ok (run_deref h4)]
    simp only [h5]
    rw [bind_ok h7, if_neg h8, hp, List.append_nil]
  have hc : resolveCheck o t q st1 = .ok false st1 := by
    rw [resolveCheck, bind_ok h7, bind_ok (find_eq hT.inv.toInv0 q h6), hT.path hi.toInv0 q h2, hq]; rfl
  rw [refAtPath, if_neg hp, bind_ok (run_deref h4)]
  simp only [h5]
  rw [bind_ok hc]; rfl

/-! ## Reading through a reference that is not resolved -/

theorem findChecked_eq {st : St} (hi : Inv0 st) : ∀ (p : VPath) {t : Nat}, Value st t →
    match path? st t p with
    | some c => findChecked t p st = .ok c st
    | none => ∃ e, findChecked t p st = .thr e st
  | [], t, ht => by rw [path?, findChecked, bind_ok (run_plain ht.1 ht.2)]; rfl
  | e :: p, t, ht => by
    rw [findChecked, bind_ok (child_eq hi ht e), path?]
    cases he : elem? st t e with
    | none => exact missing_spec (α := Nat) ht e
    | some c =>
      obtain ⟨s, h3, h4⟩ := elem_mem hi ht he
      exact findChecked_eq hi p (elem_value hi ht h3 h4)

theorem seen_turn {st st' : St} {r c : Nat} (h : Turn st st' r) (hc : c ≠ r) (hl : st'.live c) : seen st' c = seen st c := by
  unfold seen
  rw [h.others c hc hl]
  simp only [h.cells]

/-- **C96.** Reading through a reference that is not resolved: it reads what the path leads to now, and refers to that
from now on. -/
theorem look_path {grow : Nat → Nat → Nat} {st : St} (h : Runs grow st) {x o t c : Nat} {p : VPath} {k : Option Nat} (hx : st.env x = some o)
    (ho : st.sl o = .proxy t p k) (hb : ¬ BadProxy st o) (hl : st.live t) (hp : path? st t p = some c) :
    ∃ st', step grow (.look x) st = .ok (seen st c) st' ∧ st'.sl o = .ref c ∧ st'.live c ∧ ∀ y, y ≠ o → st'.live y → st'.sl y = st.sl y := by
  have hi := (runs_ok h).inv
  obtain ⟨hlo, ht, _⟩ := proxy_ok hi hx ho hl
  obtain ⟨_, hh⟩ := hi.env x o hx
  have hr := path_reach hi.toInv0 p ht hp
  have hcp := findChecked_eq hi.toInv0 p ht
  rw [hp] at hcp
  rcases resolve_spec hi hlo hh ho ht hr with ⟨_, h2⟩ | ⟨st', h1, h2⟩
  · exact absurd h2 hb
  have hck : checkRef o st = .ok () st := by
    rcases checkRef_spec hi.toInv0 hlo (t := t) (by rw [ho]; rfl) with ⟨_, h⟩ | ⟨h, _⟩
    · exact h
    · exact absurd hl h
  obtain ⟨h3, h4⟩ := h2.follow (h2.turn.bk.top o hlo hh)
  have hco : c ≠ o := by rintro rfl; have := (hr.value hi.toInv0 ht).2; rw [ho] at this; cases this
  refine ⟨st', ?_, h2.ref, h2.live, h2.turn.others⟩
  have htar : target o st = .ok c st' := by
    rw [target, bind_ok (run_deref hlo)]
    rw [St.sl] at ho
    simp only [ho]
    rw [bind_ok (by rw [resolveThrow, bind_ok hck, bind_ok hcp]; exact h1)]; exact h4
  rw [step, var, hx]
  simp only
  rw [bind_ok htar, view_spec h2.turn.inv.toInv0 h3, seen_turn h2.turn hco h2.live]

/-- **C96.** … and if the path leads to nothing an exception is thrown and nothing is changed, let alone created. -/
theorem look_no_path {grow : Nat → Nat → Nat} {st : St} (h : Runs grow st) {x o t : Nat} {p : VPath} {k : Option Nat} (hx : st.env x = some o)
    (ho : st.sl o = .proxy t p k) (hl : st.live t) (hp : path? st t p = none) : ∃ e, step grow (.look x) st = .thr e st := by
  have hi := (runs_ok h).inv
  obtain ⟨hlo, ht, _⟩ := proxy_ok hi hx ho hl
  have hcp := findChecked_eq hi.toInv0 p ht
  rw [hp] at hcp
  obtain ⟨e, hcp⟩ := hcp
  have hck : checkRef o st = .ok () st := by
    rcases checkRef_spec hi.toInv0 hlo (t := t) (by rw [ho]; rfl) with ⟨_, h⟩ | ⟨h, _⟩
    · exact h
    · exact absurd hl h
  refine ⟨e, ?_⟩
  rw [step, var, hx]
  simp only
  refine bind_thr ?_
  rw [target, bind_ok (run_deref hlo)]
  rw [St.sl] at ho
  simp only [ho]
  exact bind_thr (by rw [resolveThrow, bind_ok hck, bind_thr hcp])

/-! ## Writing through a reference to what does not exist yet -/

/-- **C96.** Assigning through a reference to a path that does not exist, but can be created: afterwards the path exists
and leads to what was assigned, and the reference refers to it. -/
theorem put_creates {grow : Nat → Nat → Nat} {st : St} (h : Runs grow st) (hn : ¬ Cyc st) {x o t : Nat} {p : VPath} {k : Option Nat} (hx : st.env x = some o)
    (ho : st.sl o = .proxy t p k) (hb : ¬ BadProxy st o) (hl : st.live t) (hp : Creatable st t p) (l : Lit) :
    ∃ st' c, step grow (.put x l) st = .ok .unit st' ∧ st'.sl o = .ref c ∧ st'.live c ∧ (st'.live t → path? st' t p = some c) ∧
      step grow (.look x) st' = .ok l.view st' := by
  have hi := (runs_ok h).inv
  obtain ⟨hlo, ht, _⟩ := proxy_ok hi hx ho hl
  obtain ⟨_, hh⟩ := hi.env x o hx
  have hT := targetCreate_spec hi hn grow hlo fun _ => hh
  have hu : Usable st o := by simp only [Usable, ho]; exact ⟨hl, hp⟩
  rw [Tri] at hT
  rw [step, var, hx]
  simp only
  cases hc : targetCreate grow o st with
  | ub => rw [hc] at hT; exact absurd hT hb
  | thr e st1 => rw [hc] at hT; exact absurd hu hT.2
  | ok c st1 =>
    rw [hc] at hT
    obtain ⟨st2, h1, h2, h3, h4, h5, h6⟩ := assignLit_sees hT.inv (fun h => hn (hT.bk.cyc hi.toInv0 h)) hT.value l
    have hco : c ≠ o ∧ st1.sl o = .ref c := by
      rcases hT.is with h7 | h7
      · subst h7
        exfalso
        have h8 := (hT.bk.stays c hlo (hT.bk.top c hlo hh)).proxy t p k ho
        have h9 := hT.value.2
        rw [St.sl, h8] at h9; cases h9
      · exact ⟨(by rintro rfl; have := hT.value.2; rw [h7] at this; cases this), h7⟩
    have hlo1 := hT.bk.top o hlo hh
    have hh1 : (st1.obj o).home = none := by rw [(hT.bk.old o (hi.objBound o hlo) hlo1).2]; exact hh
    have hlo2 := h3.top o hlo1 hh1
    have hr2 : st2.sl o = .ref c := (h3.stays o hlo1 hlo2).ref c hco.2
    refine ⟨st2, c, by rw [bind_ok hc, bind_ok h1]; rfl, hr2, h4.1, fun hlt => ?_, ?_⟩
    · have hlt1 : st1.live t := (h3.old t (by have := hi.objBound t hl; have := hT.bk.nObj; omega) hlt).1
      exact h6 p t (hT.plains t ht hlt1) hlt (hT.path t p k ho hlt1)
    · have hn2 : Names st2 x c := ⟨o, by rw [h3.env, hT.bk.env]; exact hx, .inr hr2⟩
      rw [look_eq h2.toInv0 grow hn2 h4.1, h5]

/-! ## The hypotheses are met -/

theorem creatableFine {p : VPath} (h : p.all (fun | .index i => i != 0xFFFFFFFF | .key _ => true) = true) : ∀ e ∈ p, PathElem.Fine e := by
  intro e he
  have := List.all_eq_true.1 h e he
  cases e with
  | key k => trivial
  | index i => simpa [PathElem.Fine] using this

/-- A list in a map, and references to what is there and to what is not: `v3` to `v0["b"]`, `v4` to `v0["a"][1]`, `v5` to
`v0["b"][0]["c"]`, `v6` to `v0["a"][0]`, none of them resolved yet. -/
def prog3 : List Op := [.var 0, .put 0 .map, .var 1, .put 1 .list, .var 2, .put 2 (.sca (.int 7)), .append 1 2, .set 0 (.key [97]) 1,
  .at 3 0 (.key [98]), .atPath 4 0 [.key [97], .index 1], .mkProxy 5 3 [.index 0, .key [99]], .mkProxy 6 0 [.key [97], .index 0]]

/-- `v4` stands for index 1 of the list. -/
example : ∃ st o t k, Runs double st ∧ ¬ Cyc st ∧ st.env 4 = some o ∧ st.sl o = .proxy t [.index 1] k ∧ st.live t ∧ path? st t [.index 1] = none ∧
    Creatable st t [.index 1] ∧ ¬ BadProxy st o ∧ Names st 0 0 ∧ path? st 0 [.key [97]] = some t := by
  obtain ⟨st, h1, h2, h3⟩ := after (grow := double) (ops := prog3) (p := fun st => st.env 4 == some 8 && st.sl 8 == .proxy 6 [.index 1] (some 1) && (st.obj 6).alive &&
    (elem? st 6 (.index 1)).isNone && st.sl 6 == .list 1 && (st.obj 6).home == some 0 && (st.store 1).cell.elems.all (fun e => (st.sl e).sto == none) && namesB st 0 0 &&
    path? st 0 [.key [97]] == some 6) (by decide +kernel)
  simp only [Bool.and_eq_true, beq_iff_eq, Option.isNone_iff_eq_none, List.all_eq_true] at h3
  obtain ⟨⟨⟨⟨⟨⟨⟨⟨h3, h4⟩, h5⟩, h6⟩, h7⟩, h8⟩, h9⟩, h10⟩, h11⟩ := h3
  refine ⟨st, 8, 6, some 1, h1, h2, h3, h4, h5, by rw [path?, h6]; rfl, ?_, ?_, namesB_names h10, h11⟩
  · simp only [Creatable, h6]
    exact ⟨⟨by decide, .inr ⟨_, h7⟩⟩, by simp⟩
  · rintro ⟨t, p, k, s, g1, g2, g3, g4⟩
    rw [h4] at g1
    cases g1
    rw [h8] at g3
    cases g3
    cases g4 with
    | head e _ =>
      obtain ⟨_, y, e1, e2⟩ := e
      rw [h9 y e1] at e2; cases e2

/-- `v5` stands for a path of which nothing is there, in a variable. -/
example : ∃ st o k, Runs double st ∧ ¬ Cyc st ∧ st.env 5 = some o ∧ st.sl o = .proxy 0 [.key [98], .index 0, .key [99]] k ∧ st.live 0 ∧
    path? st 0 [.key [98], .index 0, .key [99]] = none ∧ Creatable st 0 [.key [98], .index 0, .key [99]] ∧ ¬ BadProxy st o := by
  obtain ⟨st, h1, h2, h3⟩ := after (grow := double) (ops := prog3) (p := fun st => st.env 5 == some 9 && st.sl 9 == .proxy 0 [.key [98], .index 0, .key [99]] (some 0) &&
    (st.obj 0).alive && (elem? st 0 (.key [98])).isNone && st.sl 0 == .map 0 && (st.obj 0).home == none) (by decide +kernel)
  simp only [Bool.and_eq_true, beq_iff_eq, Option.isNone_iff_eq_none] at h3
  obtain ⟨⟨⟨⟨⟨h3, h4⟩, h5⟩, h6⟩, h7⟩, h8⟩ := h3
  refine ⟨st, 9, some 0, h1, h2, h3, h4, h5, by rw [path?, h6]; rfl, ?_, ?_⟩
  · simp only [Creatable, h6]
    exact ⟨.inr ⟨_, h7⟩, creatableFine rfl⟩
  · rintro ⟨t, p, k, s, g1, g2, g3, g4⟩
    rw [h4] at g1
    cases g1
    rw [h8] at g3; cases g3

/-- `v6` stands for a path that is there. -/
example : ∃ st o k c, Runs double st ∧ st.env 6 = some o ∧ st.sl o = .proxy 0 [.key [97], .index 0] k ∧ st.live 0 ∧ path? st 0 [.key [97], .index 0] = some c ∧
    ¬ BadProxy st o ∧ st.env 7 = none := by
  obtain ⟨st, h1, h2, h3⟩ := after (grow := double) (ops := prog3) (p := fun st => st.env 6 == some 10 && st.sl 10 == .proxy 0 [.key [97], .index 0] (some 0) &&
    (st.obj 0).alive && (path? st 0 [.key [97], .index 0]).isSome && (st.obj 0).home == none && st.env 7 == none) (by decide +kernel)
  simp only [Bool.and_eq_true, beq_iff_eq, Option.isSome_iff_exists] at h3
  obtain ⟨⟨⟨⟨⟨h3, h4⟩, h5⟩, c, h6⟩, h8⟩, h9⟩ := h3
  refine ⟨st, 10, some 0, c, h1, h3, h4, h5, h6, ?_, h9⟩
  rintro ⟨t, p, k, s, g1, g2, g3, g4⟩
  rw [h4] at g1
  cases g1
  rw [h8] at g3; cases g3

/-- A number has no elements. -/
example : ∃ st t, Runs double st ∧ Names st 2 t ∧ st.live t ∧ st.env 7 = none ∧ Takes (st.sl t) (.index 0) = false := by
  obtain ⟨st, h1, h2, h3⟩ := after (grow := double) (ops := prog3) (p := fun st => namesB st 2 2 && (st.obj 2).alive && st.env 7 == none && Takes (st.sl 2) (.index 0) == false) (by decide +kernel)
  simp only [Bool.and_eq_true, beq_iff_eq] at h3
  exact ⟨st, 2, h1, namesB_names h3.1.1.1, h3.1.1.2, h3.1.2, h3.2⟩

end Verif.Ref
