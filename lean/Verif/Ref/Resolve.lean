import Verif.Ref.Frame
/-!
# Looking up and resolving
-/

namespace Verif.Ref
open Verif

/-- A variable that is or becomes a reference. -/
def RefLike (st : St) (r : Nat) : Prop :=
  st.live r ∧ (st.obj r).home = none ∧ ((∃ t p k, st.sl r = .proxy t p k) ∨ st.sl r = .null ∧ (st.obj r).rd = none)

/-- An object that is no reference. -/
def Value (st : St) (x : Nat) : Prop := st.live x ∧ (st.sl x).plain = true

/-- The target is destroyed with what the reference keeps. -/
def Lost (st : St) (r t : Nat) : Prop := ∃ st1, Turn st st1 r ∧ ¬ st1.live t

theorem refInit_spec {st : St} (hi : Inv st) {t r : Nat} (hr : RefLike st r) (ht : Value st t) (hrt : t ≠ r) :
    (refInit t r st = .ub ∧ Lost st r t) ∨ ∃ st', refInit t r st = .ok () st' ∧ Turn st st' r ∧ st'.sl r = .ref t ∧ st'.live t :=
  turn_spec hi (fun _ => .ref t) (fun _ => rfl) (fun _ => .inl rfl) hr.1 hr.2.1 hr.2.2 ht.1 ht.2 hrt (fun _ => rfl)

theorem proxyInit_spec {st : St} (hi : Inv st) {t r : Nat} (path : VPath) (hr : RefLike st r) (ht : Value st t) (hrt : t ≠ r) :
    (proxyInit t r path st = .ub ∧ Lost st r t) ∨
    ∃ st', proxyInit t r path st = .ok () st' ∧ Turn st st' r ∧ st'.sl r = .proxy t path (st.sl t).sto ∧ st'.live t :=
  turn_spec hi (fun a => .proxy t path a) (fun _ => rfl) (fun _ => .inr rfl) hr.1 hr.2.1 hr.2.2 ht.1 ht.2 hrt (fun _ => rfl)

/-! ## Looking up -/

/-- `c` is `t` or lies in it. -/
inductive Reach (st : St) : Nat → Nat → Prop
  | refl (t) : Reach st t t
  | head {t s y c} : (st.sl t).sto = some s → y ∈ st.el s → Reach st y c → Reach st t c

theorem Reach.trans {st : St} {a b c : Nat} (h : Reach st a b) (h2 : Reach st b c) : Reach st a c := by
  induction h with
  | refl => exact h2
  | head h1 h2' _ ih => exact .head h1 h2' (ih h2)

theorem Reach.value {st : St} (hi : Inv0 st) {t c : Nat} (h : Reach st t c) (ht : Value st t) : Value st c := by
  induction h with
  | refl => exact ht
  | head h1 h2 _ ih =>
    have hs := hi.stoLive _ _ ht.1 h1
    obtain ⟨h3, h4, _⟩ := hi.elems _ _ hs h2
    exact ih ⟨h3, h4⟩

/-- What is in an object is in storage below its own. -/
theorem Reach.deep {st : St} (hi : Inv0 st) {t c s : Nat} (h : Reach st t c) (ht : Value st t) (hs : (st.sl t).sto = some s) {b : Nat}
    (hb : (st.sl c).sto = some b) : Below st s b := by
  induction h generalizing s with
  | refl => rw [hs] at hb; cases hb; exact .refl _
  | head h1 h2 _ ih =>
    rw [hs] at h1
    cases h1
    have hl := hi.stoLive _ _ ht.1 hs
    obtain ⟨h3, h4, h5⟩ := hi.elems _ _ hl h2
    rename_i y c h6
    cases hy : (st.sl y).sto with
    | none =>
      cases h6 with
      | refl => rw [hy] at hb; cases hb
      | head h7 => rw [hy] at h7; cases h7
    | some s' => exact .head ⟨hl, y, h2, hy⟩ (ih ⟨h3, h4⟩ hy hb)

/-- What is in an object stays in it when a reference is turned. -/
theorem Reach.turn {st st' : St} {r t c : Nat} (hi : Inv0 st) (hr : (st.obj r).home = none) (hT : Turn st st' r) (h : Reach st t c) (ht : Value st t)
    (htr : t ≠ r) (hl : st'.live t) : Reach st' t c ∧ st'.live c := by
  induction h with
  | refl => exact ⟨.refl _, hl⟩
  | head h1 h2 _ ih =>
    rename_i t s y c _
    have h3 : (st'.sl t).sto = some s := by rw [hT.others t htr hl]; exact h1
    have hs' := hT.inv.stoLive t s hl h3
    have h4 : y ∈ st'.el s := by rw [St.el, hT.cells]; exact h2
    have hy := hi.elems s y (hi.stoLive t s ht.1 h1) h2
    obtain ⟨h5, h6⟩ := ih ⟨hy.1, hy.2.1⟩ (by rintro rfl; rw [hr] at hy; cases hy.2.2) (hT.inv.elems s y hs' h4).1
    exact ⟨.head h3 h4 h5, h6⟩

theorem lost_bad {st : St} (hi : Inv0 st) {p t c : Nat} {path : VPath} {k : Option Nat} (hh : (st.obj p).home = none)
    (hs : st.sl p = .proxy t path k) (ht : Value st t) (hr : Reach st t c) (h : Lost st p c) : BadProxy st p := by
  obtain ⟨st1, h1, h2⟩ := h
  have htp : t ≠ p := by rintro rfl; have := ht.2; rw [hs] at this; cases this
  by_cases hl : st1.live t
  · exact absurd (hr.turn hi hh h1 ht htp hl).2 h2
  · obtain ⟨h, t', p', k', h3, h4, h5⟩ := h1.dead t ht.1 hl
    rw [hs] at h4
    cases h4
    exact ⟨t, path, k', h, hs, ht.1, h3, h5⟩

theorem cell_list {st : St} (hi : Inv0 st) {t s : Nat} (ht : st.live t) (h : st.sl t = .list s) :
    st.liveS s ∧ ∃ cap es, (st.store s).cell = .list cap es := by
  have h1 : (st.sl t).sto = some s := by rw [h]; rfl
  have h2 := hi.fits t s ht h1
  rw [h] at h2
  refine ⟨hi.stoLive t s ht h1, ?_⟩
  cases hc : (st.store s).cell <;> rw [hc] at h2 <;> first | exact ⟨_, _, rfl⟩ | cases h2

theorem cell_map {st : St} (hi : Inv0 st) {t s : Nat} (ht : st.live t) (h : st.sl t = .map s) :
    st.liveS s ∧ ∃ m, (st.store s).cell = .map m := by
  have h1 : (st.sl t).sto = some s := by rw [h]; rfl
  have h2 := hi.fits t s ht h1
  rw [h] at h2
  refine ⟨hi.stoLive t s ht h1, ?_⟩
  cases hc : (st.store s).cell <;> rw [hc] at h2 <;> first | exact ⟨_, rfl⟩ | cases h2

theorem cell_str {st : St} (hi : Inv0 st) {t s : Nat} (ht : st.live t) (h : st.sl t = .str s) :
    st.liveS s ∧ ∃ m, (st.store s).cell = .str m := by
  have h1 : (st.sl t).sto = some s := by rw [h]; rfl
  have h2 := hi.fits t s ht h1
  rw [h] at h2
  refine ⟨hi.stoLive t s ht h1, ?_⟩
  cases hc : (st.store s).cell <;> rw [hc] at h2 <;> first | exact ⟨_, rfl⟩ | cases h2

theorem cell_blob {st : St} (hi : Inv0 st) {t s : Nat} (ht : st.live t) (h : st.sl t = .blob s) :
    st.liveS s ∧ ∃ m, (st.store s).cell = .blob m := by
  have h1 : (st.sl t).sto = some s := by rw [h]; rfl
  have h2 := hi.fits t s ht h1
  rw [h] at h2
  refine ⟨hi.stoLive t s ht h1, ?_⟩
  cases hc : (st.store s).cell <;> rw [hc] at h2 <;> first | exact ⟨_, rfl⟩ | cases h2

theorem get_mem {m : List (Bytes × Nat)} {k : Bytes} {x : Nat} (h : AMap.get m k = some x) : (k, x) ∈ m := by
  induction m with
  | nil => cases h
  | cons p r ih =>
    obtain ⟨k', v⟩ := p
    rw [AMap.get] at h
    by_cases e : k' = k
    · rw [if_pos e] at h; cases h; rw [e]; exact List.mem_cons_self
    · rw [if_neg e] at h; exact List.mem_cons_of_mem _ (ih h)

theorem child_spec {st : St} (hi : Inv0 st) {t : Nat} (ht : Value st t) (e : PathElem) :
    ∃ r, child t e st = .ok r st ∧ ∀ c, r = some c → ∃ s, (st.sl t).sto = some s ∧ c ∈ st.el s := by
  rw [child, bind_ok (run_plain ht.1 ht.2)]
  cases hs : st.sl t with
  | list s =>
    cases e with
    | key k => exact ⟨none, rfl, fun c h => by cases h⟩
    | index i =>
      obtain ⟨h1, cap, es, h2⟩ := cell_list hi ht.1 hs
      refine ⟨es[i.toNat]?, ?_, fun c h => ⟨s, rfl, ?_⟩⟩
      · simp only
        rw [bind_ok (run_load h1), h2]; rfl
      · rw [St.el, h2]; exact List.mem_of_getElem? h
  | map s =>
    cases e with
    | index i => exact ⟨none, rfl, fun c h => by cases h⟩
    | key k =>
      obtain ⟨h1, m, h2⟩ := cell_map hi ht.1 hs
      refine ⟨AMap.get m k, ?_, fun c h => ⟨s, rfl, ?_⟩⟩
      · simp only
        rw [bind_ok (run_load h1), h2]; rfl
      · rw [St.el, h2]; exact List.mem_map.2 ⟨(k, c), get_mem h, rfl⟩
  | _ => cases e <;> exact ⟨none, rfl, fun c h => by cases h⟩

theorem missing_spec {st : St} {t : Nat} (ht : Value st t) (e : PathElem) : ∃ err, (missing t e : M α) st = .thr err st := by
  rw [missing, bind_ok (run_plain ht.1 ht.2)]
  cases st.sl t <;> cases e <;> exact ⟨_, rfl⟩

theorem elem_value {st : St} (hi : Inv0 st) {t c s : Nat} (ht : Value st t) (h1 : (st.sl t).sto = some s) (h2 : c ∈ st.el s) : Value st c := by
  obtain ⟨h3, h4, _⟩ := hi.elems s c (hi.stoLive t s ht.1 h1) h2
  exact ⟨h3, h4⟩

theorem find_spec {st : St} (hi : Inv0 st) : ∀ (p : VPath) {t : Nat}, Value st t →
    ∃ r, find t p st = .ok r st ∧ ∀ c, r = some c → Reach st t c
  | [], t, ht => ⟨some t, by rw [find, bind_ok (run_plain ht.1 ht.2)]; rfl, fun c h => by cases h; exact .refl _⟩
  | e :: p, t, ht => by
    obtain ⟨r, h1, h2⟩ := child_spec hi ht e
    rw [find, bind_ok h1]
    cases r with
    | none => exact ⟨none, rfl, fun c h => by cases h⟩
    | some c =>
      obtain ⟨s, h3, h4⟩ := h2 c rfl
      obtain ⟨r, h5, h6⟩ := find_spec hi p (elem_value hi ht h3 h4)
      exact ⟨r, h5, fun c h => .head h3 h4 (h6 c h)⟩

theorem findChecked_spec {st : St} (hi : Inv0 st) : ∀ (p : VPath) {t : Nat}, Value st t →
    (∃ c, findChecked t p st = .ok c st ∧ Reach st t c) ∨ ∃ e, findChecked t p st = .thr e st
  | [], t, ht => .inl ⟨t, by rw [findChecked, bind_ok (run_plain ht.1 ht.2)]; rfl, .refl _⟩
  | e :: p, t, ht => by
    obtain ⟨r, h1, h2⟩ := child_spec hi ht e
    rw [findChecked, bind_ok h1]
    cases r with
    | none => obtain ⟨err, h⟩ := missing_spec (α := Nat) ht e; exact .inr ⟨err, h⟩
    | some c =>
      obtain ⟨s, h3, h4⟩ := h2 c rfl
      rcases findChecked_spec hi p (elem_value hi ht h3 h4) with ⟨c, h5, h6⟩ | ⟨e, h5⟩
      · exact .inl ⟨c, h5, .head h3 h4 h6⟩
      · exact .inr ⟨e, h5⟩

theorem child_eq {st : St} (hi : Inv0 st) {t : Nat} (ht : Value st t) (e : PathElem) : child t e st = .ok (elem? st t e) st := by
  rw [child, bind_ok (run_plain ht.1 ht.2)]
  unfold elem?
  cases hs : st.sl t with
  | list s =>
    cases e with
    | key k => rfl
    | index i =>
      obtain ⟨h1, cap, es, h2⟩ := cell_list hi ht.1 hs
      simp only; rw [bind_ok (run_load h1)]; simp only [h2]; rfl
  | map s =>
    cases e with
    | index i => rfl
    | key k =>
      obtain ⟨h1, m, h2⟩ := cell_map hi ht.1 hs
      simp only; rw [bind_ok (run_load h1)]; simp only [h2]; rfl
  | _ => cases e <;> rfl

theorem find_eq {st : St} (hi : Inv0 st) : ∀ (p : VPath) {t : Nat}, Value st t → find t p st = .ok (path? st t p) st
  | [], t, ht => by rw [find, bind_ok (run_plain ht.1 ht.2)]; rfl
  | e :: p, t, ht => by
    rw [find, bind_ok (child_eq hi ht e), path?]
    obtain ⟨r, h1, h2⟩ := child_spec hi ht e
    rw [child_eq hi ht e] at h1
    cases he : elem? st t e with
    | none => rfl
    | some c =>
      rw [he] at h1
      cases h1
      obtain ⟨s, h3, h4⟩ := h2 c rfl
      exact find_eq hi p (elem_value hi ht h3 h4)

theorem elem_mem {st : St} (hi : Inv0 st) {t c : Nat} (ht : Value st t) {e : PathElem} (h : elem? st t e = some c) :
    ∃ s, (st.sl t).sto = some s ∧ c ∈ st.el s := by
  obtain ⟨r, h1, h2⟩ := child_spec hi ht e
  rw [child_eq hi ht e] at h1
  cases h1
  exact h2 c h

theorem path_reach {st : St} (hi : Inv0 st) : ∀ (p : VPath) {t c : Nat}, Value st t → path? st t p = some c → Reach st t c
  | [], t, c, _, h => by cases h; exact .refl _
  | e :: p, t, c, ht, h => by
    rw [path?, Option.bind_eq_some_iff] at h
    obtain ⟨y, h1, h2⟩ := h
    obtain ⟨s, h3, h4⟩ := elem_mem hi ht h1
    exact .head h3 h4 (path_reach hi p (elem_value hi ht h3 h4) h2)

theorem path_append {st : St} : ∀ (p q : VPath) (t : Nat), path? st t (p ++ q) = (path? st t p).bind fun c => path? st c q
  | [], q, t => rfl
  | e :: p, q, t => by
    rw [List.cons_append, path?, path?]
    cases elem? st t e with
    | none => rfl
    | some c => exact path_append p q c

theorem elem_congr {st st' : St} {a : Nat} (h1 : st'.sl a = st.sl a) (h2 : ∀ s, (st.sl a).sto = some s → (st'.store s).cell = (st.store s).cell) (e : PathElem) :
    elem? st' a e = elem? st a e := by
  unfold elem?
  rw [h1]
  cases hs : st.sl a with
  | list s => have := h2 s (by rw [hs]; rfl); cases e <;> simp only [this]
  | map s => have := h2 s (by rw [hs]; rfl); cases e <;> simp only [this]
  | _ => rfl

/-- What a path leads to does not change when a reference is turned. -/
theorem path_turn {st st' : St} {r : Nat} (hi : Inv0 st) (hr : (st.obj r).home = none) (hT : Turn st st' r) : ∀ (p : VPath) {t : Nat}, Value st t →
    t ≠ r → st'.live t → path? st' t p = path? st t p
  | [], _, _, _, _ => rfl
  | e :: p, t, ht, htr, hl => by
    rw [path?, path?, elem_congr (hT.others t htr hl) (fun s _ => hT.cells s)]
    cases h : elem? st t e with
    | none => rfl
    | some y =>
      obtain ⟨s, h1, h2⟩ := elem_mem hi ht h
      have hy := hi.elems s y (hi.stoLive t s ht.1 h1) h2
      have h3 : (st'.sl t).sto = some s := by rw [hT.others t htr hl]; exact h1
      have h4 : y ∈ st'.el s := by rw [St.el, hT.cells]; exact h2
      exact path_turn hi hr hT p ⟨hy.1, hy.2.1⟩ (by rintro rfl; rw [hr] at hy; cases hy.2.2) (hT.inv.elems s y (hT.inv.stoLive t s hl h3) h4).1

/-! ## Resolving -/

theorem checkRef_spec {st : St} (hi : Inv0 st) {r t : Nat} (hr : st.live r) (ht : (st.sl r).tgt = some t) :
    (Value st t ∧ checkRef r st = .ok () st) ∨ (¬ st.live t ∧ checkRef r st = .thr .invalidReference st) := by
  obtain ⟨k, h1, h2, h3⟩ := hi.refRd r t hr ht
  rw [checkRef, bind_ok (run_deref hr), h1]
  by_cases hl : st.live t
  · exact .inl ⟨⟨hl, (h3 hl).1⟩, by simp only [checkFlag, h2.2 hl]; rfl⟩
  · refine .inr ⟨hl, ?_⟩
    have : st.valid k = false := by
      cases h : st.valid k with
      | false => rfl
      | true => exact absurd (h2.1 h) hl
    simp only [checkFlag, this]; rfl

theorem follow_spec {st : St} (hi : Inv0 st) {r t : Nat} (hr : st.live r) (hs : st.sl r = .ref t) :
    (Value st t ∧ follow r st = .ok t st) ∨ (¬ st.live t ∧ follow r st = .thr .invalidReference st) := by
  rw [follow, bind_ok (run_deref hr)]
  simp only [St.sl] at hs
  rw [hs]
  rcases checkRef_spec hi hr (t := t) (by rw [St.sl, hs]; rfl) with ⟨h1, h2⟩ | ⟨h1, h2⟩
  · exact .inl ⟨h1, by simp only; rw [bind_ok h2, bind_ok (run_plain h1.1 h1.2)]; rfl⟩
  · exact .inr ⟨h1, by simp only; rw [bind_thr h2]⟩

/-- Nothing refers to `y`. -/
def Unref (st : St) (y : Nat) : Prop := ∀ r, st.live r → (st.sl r).tgt ≠ some y

/-- Variables other than `x` that nothing refers to are left alone. -/
def Quiet (st st' : St) (x : Nat) : Prop :=
  ∀ y, st.live y → (st.obj y).home = none → y ≠ x → Unref st y → st'.obj y = st.obj y ∧ Unref st' y

theorem Quiet.refl (st : St) (x : Nat) : Quiet st st x := fun _ _ _ _ h => ⟨rfl, h⟩

theorem Quiet.trans {a b c : St} {x : Nat} (h : Quiet a b x) (h2 : Quiet b c x) : Quiet a c x := by
  intro y h3 h4 h5 h6
  obtain ⟨h7, h8⟩ := h y h3 h4 h5 h6
  obtain ⟨h9, h10⟩ := h2 y (by rw [St.live, h7]; exact h3) (by rw [h7]; exact h4) h5 h8
  exact ⟨by rw [h9, h7], h10⟩

theorem Reach.home {st : St} (hi : Inv0 st) {t c : Nat} (h : Reach st t c) (ht : Value st t) : c = t ∨ (st.obj c).home ≠ none := by
  induction h with
  | refl => exact .inl rfl
  | head h1 h2 _ ih =>
    obtain ⟨h3, h4, h5⟩ := hi.elems _ _ (hi.stoLive _ _ ht.1 h1) h2
    rcases ih ⟨h3, h4⟩ with h6 | h6
    · right; rw [h6, h5]; simp
    · exact .inr h6

theorem Turn.quiet {st st' : St} {x : Nat} (h : Turn st st' x) (hx : ∀ y, (st.obj y).home = none → Unref st y → y ≠ x → (st'.sl x).tgt ≠ some y) :
    Quiet st st' x := by
  intro y h1 h2 h3 h4
  have h5 := hx y h2 h4 h3
  have h6 := h.bk.top y h1 h2
  refine ⟨(h.objs y h3 h6).resolve_right h5, fun r hr => ?_⟩
  by_cases e : r = x
  · rw [e]; exact h5
  · rw [h.others r e hr]; exact h4 r (h.noNew r hr)

/-- The reference was resolved to `c`. -/
structure Resolved (st st' : St) (p c : Nat) : Prop where
  quiet : Quiet st st' p
  turn : Turn st st' p
  ref : st'.sl p = .ref c
  live : st'.live c

theorem resolve_spec {st : St} (hi : Inv st) {p t c : Nat} {path : VPath} {k : Option Nat} (hp : st.live p) (hh : (st.obj p).home = none)
    (hs : st.sl p = .proxy t path k) (ht : Value st t) (hr : Reach st t c) :
    (refInit c p st = .ub ∧ BadProxy st p) ∨ ∃ st', refInit c p st = .ok () st' ∧ Resolved st st' p c := by
  have hc := hr.value hi.toInv0 ht
  have hcp : c ≠ p := by rintro rfl; have := hc.2; rw [hs] at this; cases this
  rcases refInit_spec hi ⟨hp, hh, .inl ⟨_, _, _, hs⟩⟩ hc hcp with ⟨h1, h2⟩ | ⟨st', h1, h2, h3, h4⟩
  · exact .inl ⟨h1, lost_bad hi.toInv0 hh hs ht hr h2⟩
  · refine .inr ⟨st', h1, h2.quiet fun y h5 h6 _ h7 => ?_, h2, h3, h4⟩
    rw [h3] at h7
    cases h7
    rcases hr.home hi.toInv0 ht with h8 | h8
    · exact h6 p hp (by rw [hs, h8]; rfl)
    · exact h8 h5

theorem resolveCheck_spec {st : St} (hi : Inv st) {p t : Nat} {path : VPath} {k : Option Nat} (hp : st.live p) (hh : (st.obj p).home = none)
    (hs : st.sl p = .proxy t path k) :
    Tri st (resolveCheck p t path) (BadProxy st p)
      (fun b st' => if b then ∃ c, Resolved st st' p c else st' = st ∧ Value st t) (fun st' => st' = st) := by
  rw [resolveCheck]
  rcases checkRef_spec hi.toInv0 hp (t := t) (by rw [hs]; rfl) with ⟨h1, h2⟩ | ⟨h1, h2⟩
  · refine .after h2 ?_
    obtain ⟨r, h3, h4⟩ := find_spec hi.toInv0 path h1
    refine .after h3 ?_
    cases r with
    | none => exact .ok (a := false) rfl ⟨rfl, h1⟩
    | some c =>
      rcases resolve_spec hi hp hh hs h1 (h4 c rfl) with ⟨h5, h6⟩ | ⟨st', h5, h6⟩
      · exact .ub (bind_ub h5) h6
      · exact .ok (a := true) (by simp only; rw [bind_ok h5]; rfl) ⟨c, h6⟩
  · exact .thr (bind_thr h2) rfl

theorem resolveThrow_spec {st : St} (hi : Inv st) {p t : Nat} {path : VPath} {k : Option Nat} (hp : st.live p) (hh : (st.obj p).home = none)
    (hs : st.sl p = .proxy t path k) :
    Tri st (resolveThrow p t path) (BadProxy st p) (fun _ st' => ∃ c, Resolved st st' p c) (fun st' => st' = st) := by
  rw [resolveThrow]
  rcases checkRef_spec hi.toInv0 hp (t := t) (by rw [hs]; rfl) with ⟨h1, h2⟩ | ⟨h1, h2⟩
  · refine .after h2 ?_
    rcases findChecked_spec hi.toInv0 path h1 with ⟨c, h3, h4⟩ | ⟨e, h3⟩
    · refine .after h3 ?_
      rcases resolve_spec hi hp hh hs h1 h4 with ⟨h5, h6⟩ | ⟨st', h5, h6⟩
      · exact .ub h5 h6
      · exact .ok h5 ⟨c, h6⟩
    · exact .thr (bind_thr h3) rfl
  · exact .thr (bind_thr h2) rfl

theorem Resolved.follow {st st' : St} {p c : Nat} (h : Resolved st st' p c) (hp : st'.live p) :
    Value st' c ∧ follow p st' = .ok c st' := by
  rcases follow_spec h.turn.inv.toInv0 hp h.ref with h1 | h1
  · exact h1
  · exact absurd h.live h1.1

/-- What an operation works on, if it creates nothing: `t` is `x` or what `x` refers to. -/
structure Targets (st st' : St) (x t : Nat) : Prop where
  quiet : Quiet st st' x
  turn : Turn st st' x
  value : Value st' t
  is : t = x ∧ st' = st ∨ st'.sl x = .ref t
  plain : (st.sl x).plain = true → t = x
  same : ¬ IsProxy st x → st' = st

theorem target_spec {st : St} (hi : Inv st) {x : Nat} (hx : st.live x) (hh : (st.sl x).plain = false → (st.obj x).home = none) :
    Tri st (target x) (BadProxy st x) (fun t st' => Targets st st' x t) (fun st' => Inv st' ∧ Bk st st') := by
  rw [target]
  refine .after (run_deref hx) ?_
  cases hs : (st.obj x).slot with
  | ref t =>
    rcases follow_spec hi.toInv0 hx hs with ⟨h1, h2⟩ | ⟨h1, h2⟩
    · exact .ok h2 ⟨.refl st x, .refl hi x, h1, .inr hs, (fun h => by rw [St.sl, hs] at h; cases h), fun _ => rfl⟩
    · exact .thr h2 ⟨hi, .refl hi.toInv0⟩
  | proxy t p k =>
    have hh := hh (by rw [St.sl, hs]; rfl)
    refine (resolveThrow_spec hi hx hh hs).bind id (fun st' h => by rw [h]; exact ⟨hi, .refl hi.toInv0⟩) fun _ st' ⟨c, hc⟩ => ?_
    have hl := hc.turn.bk.top x hx hh
    obtain ⟨h1, h2⟩ := hc.follow hl
    exact .ok h2 ⟨hc.quiet, hc.turn, h1, .inr hc.ref, (fun h => by rw [St.sl, hs] at h; cases h), fun h => absurd ⟨t, p, k, hs⟩ h⟩
  | _ => exact .ok rfl ⟨.refl st x, .refl hi x, ⟨hx, by rw [St.sl, hs]; rfl⟩, .inl ⟨rfl, rfl⟩, fun _ => rfl, fun _ => rfl⟩

end Verif.Ref
