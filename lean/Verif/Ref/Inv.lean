import Verif.Ref.Spec
/-!
# The invariant of the memory

What holds in every state a program reaches, and that the changes of the memory keep it.
-/

namespace Verif.Ref
open Verif

/-- The type of an object and the type of its storage. -/
def Fits : Slot → Cell → Prop
  | .str _, .str _ => True
  | .list _, .list .. => True
  | .map _, .map _ => True
  | .blob _, .blob _ => True
  | .proxy .., _ => True
  | _, _ => False

def CellOk : Cell → Prop
  | .map m => AMap.Sorted m
  | _ => True

/-- Something owns the storage. -/
def Owned (st : St) (s : Nat) : Prop := s ∈ st.holds ∨ ∃ x, st.live x ∧ (st.sl x).sto = some s

/-- The invariant, except that storage may be without owner. -/
structure Inv0 (st : St) : Prop where
  objBound : ∀ x, st.live x → x < st.nObj
  storeBound : ∀ s, st.liveS s → s < st.nStore
  rdBound : ∀ x k, st.live x → (st.obj x).rd = some k → k < st.nRd
  stoLive : ∀ x s, st.live x → (st.sl x).sto = some s → st.liveS s
  holdLive : ∀ s, s ∈ st.holds → st.liveS s
  fits : ∀ x s, st.live x → (st.sl x).sto = some s → Fits (st.sl x) (st.store s).cell
  cellOk : ∀ s, st.liveS s → CellOk (st.store s).cell
  elems : ∀ s x, st.liveS s → x ∈ st.el s → st.live x ∧ (st.sl x).plain = true ∧ (st.obj x).home = some s
  nodup : ∀ s, st.liveS s → (st.el s).Nodup
  home : ∀ x s, st.live x → (st.obj x).home = some s → st.liveS s ∧ x ∈ st.el s
  plainRd : ∀ x k, st.live x → (st.sl x).plain = true → (st.obj x).rd = some k → st.valid k = true
  plainRdInj : ∀ x y k, st.live x → st.live y → (st.sl x).plain = true → (st.sl y).plain = true →
    (st.obj x).rd = some k → (st.obj y).rd = some k → x = y
  refRd : ∀ r t, st.live r → (st.sl r).tgt = some t → ∃ k, (st.obj r).rd = some k ∧ (st.valid k = true ↔ st.live t) ∧
    (st.live t → (st.sl t).plain = true ∧ (st.obj t).rd = some k)
  tgtBound : ∀ r t, st.live r → (st.sl r).tgt = some t → t < st.nObj
  env : ∀ v x, st.env v = some x → st.live x ∧ (st.obj x).home = none
  envInj : ∀ v w x, st.env v = some x → st.env w = some x → v = w

/-- The invariant. -/
structure Inv (st : St) : Prop extends Inv0 st where
  owned : ∀ s, st.liveS s → Owned st s

theorem plain_tgt {s : Slot} (h : s.plain = true) : s.tgt = none := by cases s <;> simp_all [Slot.plain, Slot.tgt]
theorem tgt_plain {s : Slot} {t : Nat} (h : s.tgt = some t) : s.plain = false := by cases s <;> simp_all [Slot.plain, Slot.tgt]
theorem notplain_tgt {s : Slot} (h : s.plain = false) : ∃ t, s.tgt = some t := by cases s <;> simp_all [Slot.plain, Slot.tgt]

theorem init_inv : Inv St.init := by
  constructor
  · constructor <;> simp [St.init, St.live, St.liveS]
  · simp [St.init, St.liveS]

theorem owned_iff {st : St} (h : Inv0 st) (s : Nat) : st.owned s = true ↔ Owned st s := by
  simp only [St.owned, Owned, Bool.or_eq_true, List.contains_iff_mem, List.any_eq_true, List.mem_range, Bool.and_eq_true, beq_iff_eq]
  constructor
  · rintro (h1 | ⟨x, _, h1, h2⟩)
    · exact .inl h1
    · exact .inr ⟨x, h1, h2⟩
  · rintro (h1 | ⟨x, h1, h2⟩)
    · exact .inl h1
    · exact .inr ⟨x, h.objBound x h1, h1, h2⟩

theorem garbage_none {st : St} (h : Inv0 st) (hg : st.garbage = none) : Inv st := by
  refine ⟨h, fun s hs => ?_⟩
  rw [← owned_iff h]
  rw [St.garbage, List.find?_eq_none] at hg
  have := hg s (List.mem_range.2 (h.storeBound s hs))
  simpa [hs] using this

theorem garbage_some {st : St} (h : Inv0 st) {s : Nat} (hg : st.garbage = some s) : st.liveS s ∧ ¬ Owned st s := by
  have := List.find?_some hg
  rw [Bool.and_eq_true, Bool.not_eq_true'] at this
  refine ⟨this.1, fun ho => ?_⟩
  rw [(owned_iff h s).2 ho] at this
  cases this.2

theorem garbage_of_inv {st : St} (h : Inv st) : st.garbage = none := by
  rw [St.garbage, List.find?_eq_none]
  intro s _ hs
  rw [Bool.and_eq_true, Bool.not_eq_true'] at hs
  rw [(owned_iff h.toInv0 s).2 (h.owned s hs.1)] at hs
  cases hs.2

/-! ## Destroying objects -/

/-- Objects `D` are destroyed and taken out of the storage they are in; storage may be freed. -/
structure Shrinks (st : St) (D : List Nat) (st' : St) : Prop where
  obj : ∀ x, st'.obj x = if x ∈ D then { st.obj x with alive := false } else st.obj x
  valid : ∀ k, st'.valid k = (st.valid k && !(D.any fun x => (st.obj x).slot.plain && (st.obj x).rd == some k))
  liveD : ∀ x, x ∈ D → st.live x
  nObj : st'.nObj = st.nObj
  nStore : st'.nStore = st.nStore
  nRd : st'.nRd = st.nRd
  holds : st'.holds = st.holds
  env : st'.env = st.env
  envD : ∀ v x, st.env v = some x → x ∉ D
  store : ∀ s, st'.liveS s → st.liveS s ∧ (∀ sl, Fits sl (st.store s).cell → Fits sl (st'.store s).cell) ∧
    CellOk (st'.store s).cell ∧ (∀ x, x ∈ st'.el s ↔ x ∈ st.el s ∧ x ∉ D) ∧ (st'.el s).Nodup
  own : ∀ x s, st.live x → x ∉ D → (st.sl x).sto = some s → st'.liveS s
  hold : ∀ s, s ∈ st.holds → st'.liveS s
  homes : ∀ x s, st.live x → x ∉ D → (st.obj x).home = some s → st'.liveS s

theorem Shrinks.live {st st' : St} {D : List Nat} (h : Shrinks st D st') (x : Nat) : st'.live x ↔ st.live x ∧ x ∉ D := by
  simp only [St.live, h.obj]
  split <;> simp_all

theorem Shrinks.same {st st' : St} {D : List Nat} (h : Shrinks st D st') {x : Nat} (hx : st'.live x) : st'.obj x = st.obj x := by
  rw [h.obj, if_neg ((h.live x).1 hx).2]

theorem Shrinks.inv {st st' : St} {D : List Nat} (h : Shrinks st D st') (hi : Inv0 st) : Inv0 st' := by
  constructor
  · intro x hx; rw [h.nObj]; exact hi.objBound x ((h.live x).1 hx).1
  · intro s hs; rw [h.nStore]; exact hi.storeBound s (h.store s hs).1
  · intro x k hx; rw [h.nRd, h.same hx]; exact hi.rdBound x k ((h.live x).1 hx).1
  · intro x s hx; simp only [St.sl, h.same hx]; exact h.own x s ((h.live x).1 hx).1 ((h.live x).1 hx).2
  · intro s hs; rw [h.holds] at hs; exact h.hold s hs
  · intro x s hx; simp only [St.sl, h.same hx]; intro hs
    have hl := (h.live x).1 hx
    exact (h.store s (h.own x s hl.1 hl.2 hs)).2.1 _ (hi.fits x s hl.1 hs)
  · intro s hs; exact (h.store s hs).2.2.1
  · intro s x hs hx
    obtain ⟨h1, _, _, h2, _⟩ := h.store s hs
    obtain ⟨h3, h4⟩ := (h2 x).1 hx
    obtain ⟨h5, h6, h7⟩ := hi.elems s x h1 h3
    have hl := (h.live x).2 ⟨h5, h4⟩
    simp only [St.sl, h.same hl]
    exact ⟨hl, h6, h7⟩
  · intro s hs; exact (h.store s hs).2.2.2.2
  · intro x s hx; simp only [h.same hx]; intro hh
    have hl := (h.live x).1 hx
    have hs := h.homes x s hl.1 hl.2 hh
    exact ⟨hs, ((h.store s hs).2.2.2.1 x).2 ⟨(hi.home x s hl.1 hh).2, hl.2⟩⟩
  · intro x k hx; simp only [St.sl, h.same hx]; intro hp hk
    have hl := (h.live x).1 hx
    rw [h.valid, hi.plainRd x k hl.1 hp hk, Bool.true_and, Bool.not_eq_true', List.any_eq_false]
    intro y hy hc
    rw [Bool.and_eq_true, beq_iff_eq] at hc
    exact hl.2 (hi.plainRdInj x y k hl.1 (h.liveD y hy) hp hc.1 hk hc.2 ▸ hy)
  · intro x y k hx hy; simp only [St.sl, h.same hx, h.same hy]
    exact hi.plainRdInj x y k ((h.live x).1 hx).1 ((h.live y).1 hy).1
  · intro r t hr; simp only [St.sl, h.same hr]; intro ht
    obtain ⟨k, hk, h1, h2⟩ := hi.refRd r t ((h.live r).1 hr).1 ht
    refine ⟨k, hk, ?_, fun hlt => ?_⟩
    · rw [h.valid, h.live, Bool.and_eq_true, Bool.not_eq_true', List.any_eq_false]
      constructor
      · rintro ⟨h3, h4⟩
        have hlt := h1.1 h3
        refine ⟨hlt, fun hd => h4 t hd ?_⟩
        rw [Bool.and_eq_true, beq_iff_eq]
        exact h2 hlt
      · rintro ⟨h3, h4⟩
        refine ⟨h1.2 h3, fun y hy hc => ?_⟩
        rw [Bool.and_eq_true, beq_iff_eq] at hc
        exact h4 (hi.plainRdInj t y k h3 (h.liveD y hy) (h2 h3).1 hc.1 (h2 h3).2 hc.2 ▸ hy)
    · rw [h.same hlt]
      exact h2 ((h.live t).1 hlt).1
  · intro r t hr; simp only [St.sl, h.same hr]; rw [h.nObj]; exact hi.tgtBound r t ((h.live r).1 hr).1
  · intro v x hv
    rw [h.env] at hv
    have hl := (h.live x).2 ⟨(hi.env v x hv).1, h.envD v x hv⟩
    exact ⟨hl, by rw [h.same hl]; exact (hi.env v x hv).2⟩
  · intro v w x; rw [h.env]; exact hi.envInj v w x

/-- Freeing storage that nobody owns. -/
theorem free_shrinks {st : St} (hi : Inv0 st) {s : Nat} (hs : st.liveS s) (ho : ¬ Owned st s) : Shrinks st (st.el s) (st.free s) where
  obj _ := rfl
  valid _ := rfl
  liveD x hx := (hi.elems s x hs hx).1
  nObj := rfl
  nStore := rfl
  nRd := rfl
  holds := rfl
  env := rfl
  envD v x hv hx := by
    have h1 := (hi.env v x hv).2
    rw [(hi.elems s x hs hx).2.2] at h1
    cases h1
  store y hy := by
    by_cases e : y = s
    · subst e; simp [St.free, St.liveS] at hy
    · have : (st.free s).store y = st.store y := by simp [St.free, e]
      simp only [St.liveS, St.el, this] at hy ⊢
      refine ⟨hy, fun _ h => h, hi.cellOk y hy, fun x => ?_, hi.nodup y hy⟩
      constructor
      · intro h
        refine ⟨h, fun h2 => e ?_⟩
        have h3 := (hi.elems y x hy h).2.2
        rw [(hi.elems s x hs h2).2.2] at h3
        cases h3; rfl
      · exact fun h => h.1
  own x y hx _ hy := by
    have e : y ≠ s := by rintro rfl; exact ho (.inr ⟨x, hx, hy⟩)
    simp only [St.free, St.liveS, if_neg e]
    exact hi.stoLive x y hx hy
  hold y hy := by
    have e : y ≠ s := by rintro rfl; exact ho (.inl hy)
    simp only [St.free, St.liveS, if_neg e]
    exact hi.holdLive y hy
  homes x y hx hd hy := by
    have e : y ≠ s := by rintro rfl; exact hd (hi.home x _ hx hy).2
    simp only [St.free, St.liveS, if_neg e]
    exact (hi.home x y hx hy).1

/-! ## Collecting -/

theorem Below.trans {st : St} {a b c : Nat} (h : Below st a b) (h2 : Below st b c) : Below st a c := by
  induction h with
  | refl => exact h2
  | head e _ ih => exact .head e (ih h2)

theorem Below.tail {st : St} {a b c : Nat} (h : Below st a b) (e : Edge st b c) : Below st a c := h.trans (.head e (.refl c))

theorem Below.mono {st st' : St} (he : ∀ a b, Edge st a b → Edge st' a b) {a b : Nat} (h : Below st a b) : Below st' a b := by
  induction h with
  | refl => exact .refl _
  | head e _ ih => exact .head (he _ _ e) ih

theorem Shrinks.edge {st st' : St} {D : List Nat} (hi : Inv0 st) (h : Shrinks st D st') {a b : Nat} (he : Edge st' a b) : Edge st a b := by
  obtain ⟨h1, e, h2, h3⟩ := he
  obtain ⟨h4, _, _, h5, _⟩ := h.store a h1
  have h6 := (h5 e).1 h2
  have hl : st'.live e := (h.live e).2 ⟨(hi.elems a e h4 h6.1).1, h6.2⟩
  rw [St.sl, h.same hl] at h3
  exact ⟨h4, e, h6.1, h3⟩

/-- What collecting leaves. -/
structure Collects (st st' : St) : Prop where
  inv : Inv0 st'
  obj : ∀ x, st'.live x → st.live x ∧ st'.obj x = st.obj x
  home : ∀ x, (st'.obj x).home = (st.obj x).home
  store : ∀ s, (st'.store s).cell = (st.store s).cell ∧ (st'.liveS s → st.liveS s)
  nObj : st'.nObj = st.nObj
  nStore : st'.nStore = st.nStore
  nRd : st'.nRd = st.nRd
  holds : st'.holds = st.holds
  env : st'.env = st.env
  top : ∀ x, st.live x → (st.obj x).home = none → st'.live x
  edge : ∀ a b, Edge st' a b → Edge st a b
  dead : ∀ s, st.liveS s → ¬ st'.liveS s → ∃ g, st.liveS g ∧ ¬ Owned st g ∧ Below st g s

theorem Collects.refl {st : St} (hi : Inv0 st) : Collects st st where
  inv := hi
  obj _ h := ⟨h, rfl⟩
  home _ := rfl
  store _ := ⟨rfl, id⟩
  nObj := rfl
  nStore := rfl
  nRd := rfl
  holds := rfl
  env := rfl
  top _ h _ := h
  edge _ _ h := h
  dead _ h h2 := absurd h h2

theorem collect_collects : ∀ (n : Nat) {st : St}, Inv0 st → Collects st (collect n st)
  | 0, _, hi => .refl hi
  | n + 1, st, hi => by
    rw [collect]
    cases hg : st.garbage with
    | none => exact .refl hi
    | some s =>
      obtain ⟨hs, ho⟩ := garbage_some hi hg
      have hsh := free_shrinks hi hs ho
      have ih := collect_collects n (hsh.inv hi)
      have hcell : ∀ y, ((st.free s).store y).cell = (st.store y).cell := by
        intro y; by_cases e : y = s <;> simp [St.free, e]
      exact {
        inv := ih.inv
        obj := fun x hx => by
          obtain ⟨h1, h2⟩ := ih.obj x hx
          exact ⟨((hsh.live x).1 h1).1, by rw [h2, hsh.same h1]⟩
        home := fun x => by rw [ih.home, hsh.obj]; split <;> rfl
        store := fun y => by
          obtain ⟨h1, h2⟩ := ih.store y
          exact ⟨by rw [h1, hcell], fun h => (hsh.store y (h2 h)).1⟩
        nObj := by rw [ih.nObj]; rfl
        nStore := by rw [ih.nStore]; rfl
        nRd := by rw [ih.nRd]; rfl
        holds := by rw [ih.holds]; rfl
        env := by rw [ih.env]; rfl
        top := fun x hx hh => by
          have hd : x ∉ st.el s := fun h => by rw [(hi.elems s x hs h).2.2] at hh; cases hh
          have hl := (hsh.live x).2 ⟨hx, hd⟩
          exact ih.top x hl (by rw [hsh.same hl]; exact hh)
        edge := fun a b h => hsh.edge hi (ih.edge a b h)
        dead := fun y hy hd => by
          by_cases e : y = s
          · subst e; exact ⟨y, hs, ho, .refl y⟩
          have hy' : (st.free s).liveS y := by simp only [St.free, St.liveS, if_neg e]; exact hy
          obtain ⟨g, hg1, hg2, hg3⟩ := ih.dead y hy' hd
          have hg0 := (hsh.store g hg1).1
          by_cases ho : Owned st g
          · refine ⟨s, hs, ‹¬ Owned st s›, .head ⟨hs, ?_⟩ (hg3.mono fun a b => hsh.edge hi)⟩
            rcases ho with ho | ⟨x, hx, hxg⟩
            · exact absurd (Or.inl ho) hg2
            · refine ⟨x, ?_, hxg⟩
              refine Decidable.byContradiction fun hn => hg2 (.inr ⟨x, ?_⟩)
              have hl := (hsh.live x).2 ⟨hx, hn⟩
              exact ⟨hl, by rw [St.sl, hsh.same hl]; exact hxg⟩
          · exact ⟨g, hg0, ho, hg3.mono fun a b => hsh.edge hi⟩ }

theorem count_less (f g : Nat → Bool) (s : Nat) (hf : f s = true) (hg : ∀ y, g y = if y = s then false else f y) (n : Nat) :
    (List.range n).countP g + (if s < n then 1 else 0) = (List.range n).countP f := by
  induction n with
  | zero => simp
  | succ n ih =>
    rw [List.range_succ, List.countP_append, List.countP_append]
    simp only [List.countP_cons, List.countP_nil, hg n]
    by_cases h : n = s
    · subst h
      rw [if_neg (Nat.lt_irrefl n)] at ih
      rw [if_pos rfl, if_pos (Nat.lt_succ_self n), hf]
      simp
      omega
    · rw [if_neg h]
      have e : (if s < n + 1 then 1 else 0) = if s < n then 1 else 0 := by
        by_cases h2 : s < n
        · rw [if_pos h2, if_pos (by omega)]
        · rw [if_neg h2, if_neg (by omega)]
      rw [e]
      omega

theorem count_free {st : St} {s : Nat} (hb : s < st.nStore) (hs : st.liveS s) :
    (List.range (st.free s).nStore).countP (fun y => ((st.free s).store y).alive) <
      (List.range st.nStore).countP fun y => (st.store y).alive := by
  have := count_less (fun y => (st.store y).alive) (fun y => ((st.free s).store y).alive) s hs
    (fun y => by by_cases h : y = s <;> simp [St.free, h]) st.nStore
  rw [if_pos hb] at this
  show (List.range st.nStore).countP _ < _
  omega

theorem collect_enough : ∀ (n : Nat) {st : St}, Inv0 st → ((List.range st.nStore).countP fun y => (st.store y).alive) ≤ n →
    (collect n st).garbage = none
  | 0, st, hi, hn => by
    rw [collect]
    cases hg : st.garbage with
    | none => rfl
    | some s =>
      obtain ⟨hs, ho⟩ := garbage_some hi hg
      have := count_free (hi.storeBound s hs) hs
      omega
  | n + 1, st, hi, hn => by
    rw [collect]
    cases hg : st.garbage with
    | none => exact hg
    | some s =>
      obtain ⟨hs, ho⟩ := garbage_some hi hg
      have := count_free (hi.storeBound s hs) hs
      exact collect_enough n ((free_shrinks hi hs ho).inv hi) (by omega)

/-- Collecting frees exactly what nobody owns any more. -/
theorem collect_inv {st : St} (hi : Inv0 st) : Collects st st.collect ∧ Inv st.collect := by
  have h := collect_collects st.nStore hi
  refine ⟨h, garbage_none h.inv (collect_enough st.nStore hi ?_)⟩
  have := List.countP_le_length (p := fun y => (st.store y).alive) (l := List.range st.nStore)
  rwa [List.length_range] at this

theorem collect_id {st : St} (hi : Inv st) : st.collect = st := by
  have hg := garbage_of_inv hi
  rw [St.collect]
  cases st.nStore with
  | zero => rfl
  | succ n => rw [collect, hg]

/-- An object that collecting destroys lies in storage below what has no owner. -/
theorem Collects.deadObj {st st' : St} (h : Collects st st') (hi : Inv0 st) {x : Nat} (hx : st.live x) (hd : ¬ st'.live x) :
    ∃ s, (st.obj x).home = some s ∧ ∃ g, st.liveS g ∧ ¬ Owned st g ∧ Below st g s := by
  cases hh : (st.obj x).home with
  | none => exact absurd (h.top x hx hh) hd
  | some s =>
    obtain ⟨h1, h2⟩ := hi.home x s hx hh
    refine ⟨s, rfl, h.dead s h1 fun hs => hd ?_⟩
    exact (h.inv.elems s x hs (by rw [St.el, (h.store s).1]; exact h2)).1

/-- The local variable's storage is owned by the new element as well. -/
theorem kill_shared {st : St} (hi : Inv st) {d c : Nat} (hsh : Shrinks st [d] (st.kill [d])) (hc : st.live c) (hcd : c ≠ d) (hs : (st.sl d).sto = (st.sl c).sto) :
    Inv (st.kill [d]) := by
  refine ⟨hsh.inv hi.toInv0, fun s h => ?_⟩
  rcases hi.owned s (hsh.store s h).1 with h1 | ⟨x, h1, h2⟩
  · exact .inl h1
  · by_cases e : x = d
    · have hl := (hsh.live c).2 ⟨hc, by simpa using hcd⟩
      exact .inr ⟨c, hl, by rw [St.sl, hsh.same hl, ← St.sl, ← hs, ← e]; exact h2⟩
    · have hl := (hsh.live x).2 ⟨h1, by simpa using e⟩
      exact .inr ⟨x, hl, by rw [St.sl, hsh.same hl]; exact h2⟩

end Verif.Ref
