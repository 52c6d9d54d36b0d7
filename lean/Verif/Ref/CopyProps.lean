import Verif.Ref.TreeProps
import Verif.Val.CompareProps
/-!
# A copy is a value of its own (C98)
-/

namespace Verif.Ref
open Verif

/-- `x` is now a variable, `o`, that did not exist before, everything that existed is as it was, and nothing of `o` existed
before. -/
structure NewCopy (st st' : St) (x o : Nat) : Prop where
  env : st'.env x = some o
  vars : ∀ y, y ≠ x → st'.env y = st.env y
  live : st'.live o
  home : (st'.obj o).home = none
  objs : ∀ z, st.live z → st'.live z ∧ st'.obj z = st.obj z
  vals : ∀ z w, st.live z → Is st z w → Is st' z w
  names : ∀ y z, st.live z → Names st y z → Names st' y z
  inner : ∀ z, Reach st' o z → st'.live z ∧ ¬ st.live z
  apart : ∀ z c, st.live z → st'.live c → ¬ st.live c → Apart st' z c ∧ Apart st' c z

theorem newCopy {st st1 st3 : St} {q x : Nat} (hi : Inv st) (hT : Temp st st1 q) (h : Apt st1 st3 q) (hx : st.env x = none) {env : Nat → Option Nat}
    (henv : env = fun y => if y = x then some q else st3.env y) : NewCopy st { st3 with env := env } x q := by
  have he3 : st3.env = st.env := by rw [h.bk.env, hT.env]
  have hq := h.value hT.fresh.live
  have hold : ∀ z, st.live z → st3.obj z = st.obj z ∧ z ≠ q := fun z hz => by
    obtain ⟨h1, h2, h3⟩ := hT.live hi.toInv0 hz
    exact ⟨by rw [h.obj z h1 h3, h2], h3⟩
  have hstore : ∀ s, st.liveS s → st3.store s = st.store s := fun s hs => by rw [h.store s (hT.liveS.2 hs), hT.store]
  generalize hst' : ({ st3 with env := env } : St) = st'
  have hobj : st'.obj = st3.obj := by rw [← hst']
  have hsto : st'.store = st3.store := by rw [← hst']
  have hedge : ∀ a b, Edge st' a b → Edge st3 a b := fun a b h => by
    obtain ⟨h1, e, h2, h3⟩ := h
    rw [St.liveS, hsto] at h1
    rw [St.el, hsto] at h2
    rw [St.sl, hobj] at h3
    exact ⟨h1, e, h2, h3⟩
  have hb : ∀ {a b}, Below st' a b → Below st3 a b := fun h => h.mono hedge
  have hcont : content st' = content st3 := by
    funext s
    refine content_congr (by rw [hsto]) fun e _ => by rw [St.sl, hobj]
  have hqn : ¬ st.live q := fun hl => by have := hi.objBound q hl; rw [hT.num] at this; omega
  -- storage is either old, and contains what is old, or new, and contains what is new
  have hup : ∀ a b, Below st3 a b → ¬ st.liveS a → ¬ st.liveS b := by
    intro a b h1
    induction h1 with
    | refl => exact id
    | head e _ ih =>
      intro ha
      refine ih fun hb' => ?_
      rcases h.bk.edge _ _ e with h2 | h2
      · exact ha (hT.liveS.1 h2.1)
      · have := hi.storeBound _ hb'
        rw [hT.nStore] at h2; omega
  have hdown : ∀ a b, Below st3 a b → st.liveS a → st.liveS b := by
    intro a b h1
    induction h1 with
    | refl => exact id
    | head e _ ih =>
      intro ha
      refine ih ?_
      obtain ⟨_, z, h2, h3⟩ := e
      rw [St.el, hstore _ ha] at h2
      have hz := (hi.elems _ z ha h2).1
      rw [St.sl, (hold z hz).1] at h3
      exact hi.stoLive z _ hz h3
  have hnew : ∀ c, st3.live c → ¬ st.live c → (∀ s, (st3.obj c).home = some s → ¬ st.liveS s) ∧ ∀ s, (st3.sl c).sto = some s → ¬ st.liveS s := by
    intro c hc hcn
    have hh : ∀ s, (st3.obj c).home = some s → ¬ st.liveS s := fun s hs hl => by
      have hm := (h.inv.home c s hc hs).2
      rw [St.el, hstore s hl] at hm
      exact hcn (hi.elems s c hl hm).1
    refine ⟨hh, fun s hs hl => ?_⟩
    by_cases e : c = q
    · obtain ⟨y, h1, _, h2⟩ := h.slot
      rw [e, St.sl, h1] at hs
      have := h2 s hs
      rw [hT.nStore] at this
      have := hi.storeBound s hl
      omega
    · have hc1 : st1.nObj ≤ c := Nat.le_of_not_lt fun hlt => by
        have := (h.bk.old c hlt hc).1
        rw [St.live, hT.obj c e] at this
        exact hcn this
      have hne := h.bk.new c hc1 hc
      cases hho : (st3.obj c).home with
      | none => exact hne hho
      | some a =>
        obtain ⟨h1, h2⟩ := h.inv.home c a hc hho
        exact hup a s (.head ⟨h1, c, h2, hs⟩ (.refl s)) (hh a hho) hl
  have holdS : ∀ z, st.live z → (∀ s, (st3.obj z).home = some s → st.liveS s) ∧ ∀ s, (st3.sl z).sto = some s → st.liveS s := fun z hz => by
    rw [St.sl, (hold z hz).1]
    exact ⟨fun s hs => (hi.home z s hz hs).1, fun s hs => hi.stoLive z s hz hs⟩
  have hinner : ∀ z, Reach st' q z → st'.live z ∧ ¬ st.live z := by
    have : ∀ a z, Reach st' a z → st'.live a → ¬ st.live a → st'.live z ∧ ¬ st.live z := by
      intro a z hr
      induction hr with
      | refl => exact fun h1 h2 => ⟨h1, h2⟩
      | head h1 h2 _ ih =>
        intro ha han
        rename_i a s y c _
        rw [St.live, hobj] at ha
        rw [St.sl, hobj] at h1
        rw [St.el, hsto] at h2
        have hs := h.inv.stoLive a s ha h1
        have hy := h.inv.elems s y hs h2
        refine ih (by rw [St.live, hobj]; exact hy.1) fun hyl => ?_
        exact (hnew a ha han).2 s h1 ((holdS y hyl).1 s hy.2.2)
    exact fun z hr => this q z hr (by rw [St.live, hobj]; exact hq.1) hqn
  refine ⟨by rw [← hst', henv]; simp, fun y hy => by rw [← hst', henv]; simp only [if_neg hy]; rw [he3], by rw [St.live, hobj]; exact hq.1, by rw [hobj, h.home]; exact hT.fresh.home, fun z hz => ?_, fun z w hz hw => ?_,
    fun y z hz hy => ?_, hinner, fun z c hz hc hcn => ?_⟩
  · exact ⟨by rw [St.live, hobj, (hold z hz).1]; exact hz, by rw [hobj, (hold z hz).1]⟩
  · have hl := fun a ha => hi.stoLive z a hz ha
    have h1 := h.keep hT.inv.toInv0 hT.fresh.home (hT.keep hi.toInv0 hw hl) fun a ha => hT.liveS.2 (hl a ha)
    rw [Is, hcont, St.sl, hobj, (hold z hz).1]
    exact h1
  · obtain ⟨o, h1, h2⟩ := hy
    have hyx : y ≠ x := by rintro rfl; rw [hx] at h1; cases h1
    have ho := (hi.env y o h1).1
    refine ⟨o, by rw [← hst', henv]; simp only [if_neg hyx]; rw [he3]; exact h1, ?_⟩
    rw [St.sl, St.sl, hobj, (hold z hz).1, (hold o ho).1]; exact h2
  · rw [St.live, hobj] at hc
    obtain ⟨c1, c2⟩ := hnew c hc hcn
    obtain ⟨z1, z2⟩ := holdS z hz
    have hne : z ≠ c := by rintro rfl; exact hcn hz
    refine ⟨⟨⟨fun s a h1 h2 h3 => ?_, fun s a h1 h2 h3 => ?_⟩, hne, fun s h1 h2 => ?_⟩, ⟨⟨fun s a h1 h2 h3 => ?_, fun s a h1 h2 h3 => ?_⟩, Ne.symm hne, fun s h1 h2 => ?_⟩⟩
    all_goals first | rw [St.sl, hobj] at h1 | skip
    all_goals first | rw [hobj] at h2 | (rw [St.sl, hobj] at h2) | skip
    · exact c1 a h2 (hdown s a (hb h3) (z2 s h1))
    · exact c2 a h2 (hdown s a (hb h3) (z2 s h1))
    · exact c2 s h1 (z1 s h2)
    · exact hup s a (hb h3) (c2 s h1) (z1 a h2)
    · exact hup s a (hb h3) (c2 s h1) (z2 a h2)
    · exact c1 s h2 (z2 s h1)

theorem steps_append {grow : Nat → Nat → Nat} {a b c : St} {ops more : List Op} (h : Steps grow a ops b) (h2 : Steps grow b more c) : Steps grow a (ops ++ more) c := by
  induction h with
  | nil => exact h2
  | ok hn h1 _ ih => exact .ok hn h1 (ih h2)
  | thr hn h1 _ ih => exact .thr hn h1 (ih h2)

/-- **C98.** `Variant x = y.Copy()` makes `x` a copy of what `y` is or refers to.  Nothing else changes, and nothing in the copy
existed before. -/
theorem copy_is {grow : Nat → Nat → Nat} {st : St} (h : Runs grow st) (hn : ¬ Cyc st) {x y t : Nat} {v : Val} (hx : st.env x = none) (hy : Names st y t) (ht : st.live t)
    (hv : Is st t v) : ∃ st' o, step grow (.copy x y) st = .ok .unit st' ∧ NewCopy st st' x o ∧ Is st' o (deepCopy v) ∧ ¬ Cyc st' := by
  have hi := (runs_ok h).inv
  obtain ⟨o, hyo, _⟩ := id hy
  have ha := hy.about hi.toInv0 hyo
  have hT := temp_temp hi
  obtain ⟨ht1, et, htq⟩ := hT.live hi.toInv0 ht
  have ha1 := hT.about hi.toInv0 ha ht
  generalize hst1 : st.new none [.null] = st1 at hT ht1 et ha1
  obtain ⟨st3, h1, h2, h3⟩ := copyDeep_spec hT.inv (fun hc => hn (hT.cyc hc)) grow (t := t) (d := st.nObj)
    ⟨ht1, by rw [St.sl, et]; exact hy.plain hi.toInv0 ht⟩ hT.fresh.live hT.fresh.home hT.fresh.null htq
  refine ⟨_, st.nObj, ?_, newCopy hi hT h2 hx rfl, ?_, fun hc => ?_⟩
  · rw [step, var, hyo]
    simp only
    rw [declare, hx]
    simp only
    rw [hst1, bind_ok (by rw [ha1.target hT.inv.toInv0, if_pos ht1]), h1]
  · refine h3 v ?_
    rw [Is, St.sl, et]
    exact hT.keep hi.toInv0 hv fun a ha => hi.stoLive t a ht ha
  · have hc3 : Cyc st3 := by
      obtain ⟨a, b, h4, h5⟩ := hc
      have h6 : ∀ u w, Edge { st3 with env := fun y => if y = x then some st.nObj else st3.env y } u w → Edge st3 u w := fun _ _ h => h
      exact ⟨a, b, h4, h5.mono h6⟩
    exact hn (hT.cyc (h2.bk.cyc hT.inv.toInv0 hc3))

/-- **C98.** The copy compares equal. -/
theorem copy_equal {grow : Nat → Nat → Nat} {st : St} (h : Runs grow st) (hn : ¬ Cyc st) {x y t : Nat} (hx : st.env x = none) (hy : Names st y t) (ht : st.live t) :
    ∃ st' o v w, step grow (.copy x y) st = .ok .unit st' ∧ st'.env x = some o ∧ Is st' t v ∧ Is st' o w ∧ ∀ p, veq p v w = true := by
  obtain ⟨v, hv, _⟩ := is_exists h hn hy ht
  obtain ⟨st', o, h1, h2, h3, _⟩ := copy_is h hn hx hy ht hv
  exact ⟨st', o, v, deepCopy v, h1, h2.env, h2.vals t v ht hv, h3, fun p => by rw [veq, cmp_deepCopy]; rfl⟩

theorem Apart.beside {st : St} {z t : Nat} (h : Apart st z t) : Beside st z t := ⟨h.ne, h.home⟩

/-- **C98.** Whatever is done to the copy, or to anything in it, what existed before it is what it was. -/
theorem copy_changed {grow : Nat → Nat → Nat} {st st' : St} {x o : Nat} (h : NewCopy st st' x o) {op : Op} {c : Nat} {r : Wr} {far : Nat → Prop} (hc : Reach st' o c)
    (hd : Does grow op st' c r far) (hfar : ∀ z, Apart st' z c → far z) :
    ∃ st'', Ends (step grow op st') .unit r.2 st'' ∧ Is st'' c r.1 ∧ (∀ z, st.live z → (st.obj z).home = none → st''.live z) ∧
      ∀ z w, st.live z → st''.live z → Is st z w → Is st'' z w := by
  obtain ⟨st'', h1, _, h2, _, h4, h3⟩ := hd
  obtain ⟨c1, c2⟩ := h.inner c hc
  exact ⟨st'', h1, h2, fun z hz hh => h4 z (h.objs z hz).1 (by rw [(h.objs z hz).2]; exact hh), fun z w hz hz' hw => h3 z w (h.objs z hz).1 hz' (hfar z (h.apart z c hz c1 c2).1) (h.vals z w hz hw)⟩

/-- **C98.** Whatever is done to anything that existed before, the copy, and what is in it, is what it was. -/
theorem copied_changed {grow : Nat → Nat → Nat} {st st' : St} {x o : Nat} (h : NewCopy st st' x o) {op : Op} {t : Nat} {r : Wr} {far : Nat → Prop} (ht : st.live t)
    (hd : Does grow op st' t r far) (hfar : ∀ z, Apart st' z t → far z) :
    ∃ st'', Ends (step grow op st') .unit r.2 st'' ∧ Is st'' t r.1 ∧ st''.live o ∧ ∀ c w, Reach st' o c → st''.live c → Is st' c w → Is st'' c w := by
  obtain ⟨st'', h1, _, h2, _, h4, h3⟩ := hd
  refine ⟨st'', h1, h2, h4 o h.live h.home, fun c w hc hc' hw => ?_⟩
  obtain ⟨c1, c2⟩ := h.inner c hc
  exact h3 c w c1 hc' (hfar c (h.apart t c ht c1 c2).2) hw

/-- **C98.** For instance, appending to the copy of a list, a copy in which nothing is shared, leaves the list alone. -/
theorem copy_append {grow : Nat → Nat → Nat} {st : St} (h : Runs grow st) (hn : ¬ Cyc st) {x y u t a : Nat} {v w : Val} (hx : st.env x = none) (hy : Names st y t) (ht : st.live t)
    (hv : Is st t v) (hu : Names st u a) (ha : st.live a) (hw : Is st a w) :
    ∃ st' st'' o, step grow (.copy x y) st = .ok .unit st' ∧ st'.env x = some o ∧ Ends (step grow (.append x u) st') .unit (Verif.append (deepCopy v) w).2 st'' ∧
      Is st'' o (Verif.append (deepCopy v) w).1 ∧ ((st.obj t).home = none → st''.live t ∧ Is st'' t v) := by
  obtain ⟨st', o, h1, h2, h3, h4⟩ := copy_is h hn hx hy ht hv
  have hr : Runs grow st' := by
    obtain ⟨ops, hs⟩ := h
    exact ⟨ops ++ [.copy x y], steps_append hs (.ok hn h1 (.nil _))⟩
  have hi' := (runs_ok hr).inv
  obtain ⟨o1, o2⟩ := h2.inner o (.refl o)
  have hxo : Names st' x o := ⟨o, h2.env, .inl ⟨SlotIs.plain h3, rfl⟩⟩
  have hout : Outside st' a o := (h2.apart a o ha o1 o2).1.toOutside
  have hdo := append_is hr h4 hxo o1 h3 (h2.names u a ha hu) (h2.objs a ha).1 (h2.vals a w ha hw) hout
  obtain ⟨st'', k1, k2, k4, k3⟩ := copy_changed h2 (.refl o) hdo fun _ h => h
  exact ⟨st', st'', o, h1, h2.env, k1, k2, fun hh => ⟨k4 t ht hh, k3 t v ht (k4 t ht hh) hv⟩⟩

/-- A list in `v0` that contains a map, with a text, a blob of two pieces, and the list's own number; `v3` refers to the list. -/
def progNest : List Op := [.var 0, .put 0 .list, .var 1, .put 1 .map, .var 2, .put 2 (.str [97]), .set 1 (.key [97]) 2, .put 2 (.blob [[1], [2]]), .set 1 (.key [98]) 2,
  .append 0 1, .put 2 (.sca (.int 7)), .append 0 2, .mkRef 3 0]

example : ∃ st, Runs double st ∧ ¬ Cyc st ∧ st.env 4 = none ∧ Names st 3 0 ∧ st.live 0 ∧ (st.obj 0).home = none ∧
    Is st 0 (.list [.map [([97], .str [97]), ([98], .blob [[1], [2]])], .int 7]) := by
  obtain ⟨st, h1, h2, h3⟩ := after (grow := double) (ops := progNest) (p := fun st => st.env 4 == none && namesB st 3 0 && (st.obj 0).alive && (st.obj 0).home == none &&
    st.sl 0 == .list 0 && (st.store 0).cell == .list 2 [10, 11] && st.sl 10 == .map 1 && st.sl 11 == .sca (.int 7) && (st.store 1).cell == .map [([97], 4), ([98], 6)] &&
    st.sl 4 == .str 2 && (st.store 2).cell == .str [97] && st.sl 6 == .blob 3 && (st.store 3).cell == .blob [[1], [2]]) (by decide +kernel)
  simp only [Bool.and_eq_true, beq_iff_eq] at h3
  obtain ⟨⟨⟨⟨⟨⟨⟨⟨⟨⟨⟨⟨a1, a2⟩, a3⟩, a4⟩, a5⟩, a6⟩, a7⟩, a8⟩, a9⟩, a10⟩, a11⟩, a12⟩, a13⟩ := h3
  refine ⟨st, h1, h2, a1, namesB_names a2, a3, a4, ?_⟩
  rw [Is, a5, SlotIs]
  refine ⟨0, [st.sl 10, st.sl 11], rfl, by rw [content, a6]; rfl, _, _, rfl, ?_, _, _, rfl, by rw [a8, SlotIs], rfl⟩
  rw [a7, SlotIs]
  refine ⟨1, [([97], st.sl 4), ([98], st.sl 6)], rfl, by rw [content, a9]; rfl, _, _, rfl, ?_, _, _, rfl, ?_, rfl⟩
  · rw [a10, SlotIs]
    exact ⟨2, rfl, by rw [content, a11]; rfl⟩
  · rw [a12, SlotIs]
    exact ⟨3, rfl, by rw [content, a13]; rfl⟩

/-- **C98.** A value that contains itself cannot be copied: the recursion does not end. -/
theorem copy_cycle_false : ∃ st, Runs double st ∧ Names st 0 0 ∧ st.live 0 ∧ step double (.copy 1 0) st = .ub := by
  obtain ⟨st, ⟨ops, h1⟩, h2, h3⟩ := after (grow := double) (ops := [.var 0, .put 0 .list])
    (p := fun st => thenB (.append 0 0) (fun st' => namesB st' 0 0 && (st'.obj 0).alive && (match step double (.copy 1 0) st' with | .ub => true | _ => false)) st) (by decide +kernel)
  obtain ⟨st', b1, b2⟩ := thenB_step h3
  simp only [Bool.and_eq_true] at b2
  obtain ⟨⟨b2, b3⟩, b4⟩ := b2
  refine ⟨st', ⟨_, steps_append h1 (.ok h2 b1 (.nil _))⟩, namesB_names b2, b3, ?_⟩
  cases hs : step double (.copy 1 0) st' with
  | ub => rfl
  | ok _ _ => rw [hs] at b4; cases b4
  | thr _ _ => rw [hs] at b4; cases b4

end Verif.Ref
