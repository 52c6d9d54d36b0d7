import Verif.Ref.Assign
/-!
# The operations of programs
-/

namespace Verif.Ref
open Verif

/-! ## New references -/

theorem fresh_lost {st : St} {q t : Nat} (h : Fresh st q) (ht : st.live t) : ¬ Lost st q t := by
  rintro ⟨st1, h1, h2⟩
  obtain ⟨_, _, _, _, _, h3, _⟩ := h1.dead t ht h2
  rw [h.null] at h3; cases h3

theorem fresh_refInit {st : St} (hi : Inv st) {t q : Nat} (hq : Fresh st q) (ht : Value st t) (htq : t ≠ q) {B : Prop} :
    Tri st (refInit t q) B (fun _ => Safe st) (Safe st) := by
  rcases refInit_spec hi hq.like ht htq with ⟨_, h⟩ | ⟨st', h1, h2, _⟩
  · exact absurd h (fresh_lost hq ht.1)
  · exact .ok h1 ⟨h2.inv, h2.bk.toFr⟩

theorem fresh_proxyInit {st : St} (hi : Inv st) {t q : Nat} (p : VPath) (hq : Fresh st q) (ht : Value st t) (htq : t ≠ q) {B : Prop} :
    Tri st (proxyInit t q p) B (fun _ => Safe st) (Safe st) := by
  rcases proxyInit_spec hi p hq.like ht htq with ⟨_, h⟩ | ⟨st', h1, h2, _⟩
  · exact absurd h (fresh_lost hq ht.1)
  · exact .ok h1 ⟨h2.inv, h2.bk.toFr⟩

theorem unref_ne {st : St} {q o t : Nat} (hq : Unref st q) (ho : st.live o) (h : (st.sl o).tgt = some t) : t ≠ q := by
  rintro rfl; exact hq o ho h

theorem makeRef_fresh {st : St} (hi : Inv st) {o q : Nat} (hq : Fresh st q) (ho : st.live o) (hoq : o ≠ q) {B : Prop} :
    Tri st (makeRef o q) B (fun _ => Safe st) (Safe st) := by
  rw [makeRef]
  refine .after (run_deref ho) ?_
  cases hs : (st.obj o).slot with
  | ref t =>
    rcases checkRef_spec hi.toInv0 ho (t := t) (by rw [St.sl, hs]; rfl) with ⟨h1, h2⟩ | ⟨h1, h2⟩
    · exact .after h2 (.after (run_plain h1.1 h1.2) (fresh_refInit hi hq h1 (unref_ne hq.unref ho (by rw [St.sl, hs]; rfl))))
    · exact .thr (bind_thr h2) ⟨hi, .refl hi.toInv0⟩
  | proxy t p k =>
    rcases checkRef_spec hi.toInv0 ho (t := t) (by rw [St.sl, hs]; rfl) with ⟨h1, h2⟩ | ⟨h1, h2⟩
    · refine .after h2 ?_
      rw [if_neg hoq]
      exact fresh_proxyInit hi p hq h1 (unref_ne hq.unref ho (by rw [St.sl, hs]; rfl))
    · exact .thr (bind_thr h2) ⟨hi, .refl hi.toInv0⟩
  | _ => exact fresh_refInit hi hq ⟨ho, by rw [St.sl, hs]; rfl⟩ hoq

theorem makeProxy_fresh {st : St} (hi : Inv st) {o q : Nat} (path : VPath) (hq : Fresh st q) (ho : st.live o) (hoq : o ≠ q) {B : Prop} :
    Tri st (makeProxy o q path) B (fun _ => Safe st) (Safe st) := by
  rw [makeProxy]
  refine .after (run_deref ho) ?_
  cases hs : (st.obj o).slot with
  | ref t =>
    rcases checkRef_spec hi.toInv0 ho (t := t) (by rw [St.sl, hs]; rfl) with ⟨h1, h2⟩ | ⟨h1, h2⟩
    · exact .after h2 (fresh_proxyInit hi path hq h1 (unref_ne hq.unref ho (by rw [St.sl, hs]; rfl)))
    · exact .thr (bind_thr h2) ⟨hi, .refl hi.toInv0⟩
  | proxy t p k =>
    rcases checkRef_spec hi.toInv0 ho (t := t) (by rw [St.sl, hs]; rfl) with ⟨h1, h2⟩ | ⟨h1, h2⟩
    · exact .after h2 (fresh_proxyInit hi _ hq h1 (unref_ne hq.unref ho (by rw [St.sl, hs]; rfl)))
    · exact .thr (bind_thr h2) ⟨hi, .refl hi.toInv0⟩
  | _ => exact fresh_proxyInit hi path hq ⟨ho, by rw [St.sl, hs]; rfl⟩ hoq

theorem reach_ne {st : St} (hi : Inv0 st) {q t c : Nat} (hq : (st.obj q).home = none) (ht : Value st t) (htq : t ≠ q) (h : Reach st t c) : c ≠ q := by
  rcases h.home hi ht with h1 | h1
  · rw [h1]; exact htq
  · rintro rfl; exact h1 hq

theorem refAt_go {st : St} (hi : Inv st) {t q : Nat} (hq : Fresh st q) (ht : Value st t) (htq : t ≠ q) (e : PathElem) {B : Prop} :
    Tri st (refAt.go q e t) B (fun _ => Safe st) (Safe st) := by
  rw [refAt.go]
  obtain ⟨r, h1, h2⟩ := child_spec hi.toInv0 ht e
  refine .after h1 ?_
  cases r with
  | some c =>
    obtain ⟨s, h3, h4⟩ := h2 c rfl
    exact fresh_refInit hi hq (elem_value hi.toInv0 ht h3 h4) (reach_ne hi.toInv0 hq.home ht htq (.head h3 h4 (.refl c)))
  | none =>
    refine .after (run_plain ht.1 ht.2) ?_
    cases st.sl t <;> cases e <;> first | exact fresh_proxyInit hi _ hq ht htq | exact .thr rfl ⟨hi, .refl hi.toInv0⟩

theorem safe_trans {a b c : St} (hi : Inv0 a) (h : Fr a b) (h2 : Safe b c) : Safe a c := ⟨h2.1, h.trans h2.2 hi⟩

theorem Tri.safe {st st1 : St} {m : M α} {B : Prop} (hi : Inv0 st) (h : Fr st st1) (h2 : Tri st1 m B (fun _ => Safe st1) (Safe st1)) :
    Tri st1 m B (fun _ => Safe st) (Safe st) :=
  h2.mono id (fun _ _ h3 => safe_trans hi h h3) (fun _ h3 => safe_trans hi h h3)

theorem refAt_spec {st : St} (hi : Inv st) {o q : Nat} (hq : Fresh st q) (ho : st.live o) (hoh : (st.obj o).home = none) (hoq : o ≠ q) (e : PathElem) :
    Tri st (refAt o q e) (BadProxy st o) (fun _ => Safe st) (Safe st) := by
  rw [refAt]
  refine .after (run_deref ho) ?_
  cases hs : (st.obj o).slot with
  | ref t =>
    rcases follow_spec hi.toInv0 ho hs with ⟨h1, h2⟩ | ⟨h1, h2⟩
    · exact .after h2 (refAt_go hi hq h1 (unref_ne hq.unref ho (by rw [St.sl, hs]; rfl)) e)
    · exact .thr (bind_thr h2) ⟨hi, .refl hi.toInv0⟩
  | proxy t p k =>
    have htq := unref_ne (t := t) hq.unref ho (by rw [St.sl, hs]; rfl)
    refine (resolveCheck_spec hi ho hoh hs).bind id (fun st' h => by rw [h]; exact ⟨hi, .refl hi.toInv0⟩) ?_
    intro b st1 h1
    cases b with
    | false =>
      obtain ⟨rfl, h2⟩ := h1
      exact fresh_proxyInit hi _ hq h2 htq
    | true =>
      obtain ⟨c, h1⟩ := h1
      obtain ⟨h2, h3⟩ := h1.quiet q hq.live hq.home (Ne.symm hoq) hq.unref
      have hl := h1.turn.bk.top o ho hoh
      obtain ⟨h4, h5⟩ := h1.follow hl
      exact .safe hi.toInv0 h1.turn.bk.toFr (.after h5 (refAt_go h1.turn.inv (hq.keep h2 h3) h4 (unref_ne h3 hl (by rw [h1.ref]; rfl)) e))
  | _ => exact refAt_go hi hq ⟨ho, by rw [St.sl, hs]; rfl⟩ hoq e

theorem walk_spec {st : St} (hi : Inv st) {q : Nat} (hq : Fresh st q) {B : Prop} : ∀ (p : VPath) {t : Nat}, Value st t → t ≠ q →
    Tri st (refAtPath.walk q t p) B (fun _ => Safe st) (Safe st)
  | [], t, ht, htq => by rw [refAtPath.walk]; exact fresh_refInit hi hq ht htq
  | e :: p, t, ht, htq => by
    rw [refAtPath.walk]
    obtain ⟨r, h1, h2⟩ := child_spec hi.toInv0 ht e
    refine .after h1 ?_
    cases r with
    | some c =>
      obtain ⟨s, h3, h4⟩ := h2 c rfl
      exact walk_spec hi hq p (elem_value hi.toInv0 ht h3 h4) (reach_ne hi.toInv0 hq.home ht htq (.head h3 h4 (.refl c)))
    | none => exact fresh_proxyInit hi _ hq ht htq

theorem refAtPath_spec {st : St} (hi : Inv st) {o q : Nat} (hq : Fresh st q) (ho : st.live o) (hoh : (st.obj o).home = none) (hoq : o ≠ q) (p : VPath) :
    Tri st (refAtPath o q p) (BadProxy st o) (fun _ => Safe st) (Safe st) := by
  rw [refAtPath]
  by_cases hp : p = []
  · rw [if_pos hp]; exact makeRef_fresh hi hq ho hoq
  rw [if_neg hp]
  refine .after (run_deref ho) ?_
  cases hs : (st.obj o).slot with
  | ref t =>
    rcases follow_spec hi.toInv0 ho hs with ⟨h1, h2⟩ | ⟨h1, h2⟩
    · exact .after h2 (walk_spec hi hq p h1 (unref_ne hq.unref ho (by rw [St.sl, hs]; rfl)))
    · exact .thr (bind_thr h2) ⟨hi, .refl hi.toInv0⟩
  | proxy t p' k =>
    have htq := unref_ne (t := t) hq.unref ho (by rw [St.sl, hs]; rfl)
    refine (resolveCheck_spec hi ho hoh hs).bind id (fun st' h => by rw [h]; exact ⟨hi, .refl hi.toInv0⟩) ?_
    intro b st1 h1
    cases b with
    | false =>
      obtain ⟨rfl, h2⟩ := h1
      exact fresh_proxyInit hi _ hq h2 htq
    | true =>
      obtain ⟨c, h1⟩ := h1
      obtain ⟨h2, h3⟩ := h1.quiet q hq.live hq.home (Ne.symm hoq) hq.unref
      have hl := h1.turn.bk.top o ho hoh
      obtain ⟨h4, h5⟩ := h1.follow hl
      exact .safe hi.toInv0 h1.turn.bk.toFr (.after h5 (walk_spec h1.turn.inv (hq.keep h2 h3) p h4 (unref_ne h3 hl (by rw [h1.ref]; rfl))))
  | _ => exact walk_spec hi hq p ⟨ho, by rw [St.sl, hs]; rfl⟩ hoq

/-- The target is not the local variable. -/
theorem Works.ne {st st' : St} {x t d : Nat} (h : Works st st' x t) (hx : st'.live x) (hxd : x ≠ d) (hd : Unref st' d) : t ≠ d := by
  rcases h.is with h1 | h1
  · rw [h1]; exact hxd
  · exact unref_ne hd hx (by rw [h1]; rfl)

theorem refAtPathDef_spec {st : St} (hi : Inv st) (hn : ¬ Cyc st) (grow : Nat → Nat → Nat) {o q d : Nat} (hq : Fresh st q) (ho : st.live o) (hoh : (st.obj o).home = none)
    (hoq : o ≠ q) (hd : Value st d) (hdh : (st.obj d).home = none) (hdu : Unref st d) (hod : o ≠ d) (p : VPath) :
    Tri st (refAtPathDef grow o q p d) (BadProxy st o) (fun _ => Safe st) (Safe st) := by
  rw [refAtPathDef]
  by_cases hp : p = []
  · rw [if_pos hp]; exact makeRef_fresh hi hq ho hoq
  rw [if_neg hp]
  refine (targetCreate_spec hi hn grow ho fun _ => hoh).bind id (fun _ h => h.1) ?_
  intro t st1 h1
  have hl := h1.bk.top o ho hoh
  obtain ⟨h2, h3⟩ := h1.quiet q hq.live hq.home (Ne.symm hoq) hq.unref
  obtain ⟨h4, h5⟩ := h1.quiet d hd.1 hdh (Ne.symm hod) hdu
  have hq1 := hq.keep h2 h3
  have htq := h1.ne hl hoq h3
  refine .safe hi.toInv0 h1.bk.toFr ?_
  refine (getPathDef_spec grow p h1.inv (fun h => hn (h1.bk.cyc hi.toInv0 h)) h1.value ⟨by rw [St.live, h4]; exact hd.1, by rw [St.sl, h4]; exact hd.2⟩
    (by rw [h4]; exact hdh) (Ne.symm (h1.ne hl hod h5))).bind False.elim (fun _ h => h.1) ?_
  intro c st2 h6
  obtain ⟨h7, h8⟩ := h6.reach t h1.value (.refl t)
  obtain ⟨h9, h10⟩ := h6.quiet h1.value q hq1.live hq1.home (Ne.symm htq) h3
  have hq2 := hq1.keep h9 h10
  exact .safe h1.inv.toInv0 h6.fr (fresh_refInit h6.inv hq2 (h8.value h6.inv.toInv0 h7) (reach_ne h6.inv.toInv0 hq2.home h7 htq h8))

/-! ## References turned by the program -/

/-- The same state, but the reference `q` is taken to be unresolved. -/
structure Masks (st : St) (q : Nat) (st1 : St) : Prop where
  inv : Inv st1
  like : RefLike st1 q
  obj : ∀ y, y ≠ q → st1.obj y = st.obj y
  alive : ∀ y, st1.live y ↔ st.live y
  home : ∀ y, (st1.obj y).home = (st.obj y).home
  env : st1.env = st.env
  holds : st1.holds = st.holds
  nObj : st1.nObj = st.nObj
  store : st1.store = st.store
  run : ∀ m : M Unit, (release q >>= fun _ => m) st1 = (release q >>= fun _ => m) st
  keep : ∀ t p k, st1.sl q = .proxy t p (some k) → st.sl q = .proxy t p (some k)

theorem masks {st : St} (hi : Inv st) {q : Nat} (hq : st.live q) (hqh : (st.obj q).home = none) (hqp : (st.sl q).plain = false) : ∃ st1, Masks st q st1 := by
  cases hs : st.sl q with
  | proxy t p k =>
    exact ⟨st, hi, ⟨hq, hqh, .inl ⟨_, _, _, hs⟩⟩, fun _ _ => rfl, fun _ => .rfl, fun _ => rfl, rfl, rfl, rfl, rfl, fun _ => rfl, fun _ _ _ h => h⟩
  | ref t =>
    have h0 : Inv0 (st.setSlot q (.proxy t [] none)) := by
      refine setSlot_inv0 hi.toInv0 hq (by rw [hs]; rfl) (by rw [hs]; rfl) ?_
      intro s h; cases h
    have hi1 : Inv (st.setSlot q (.proxy t [] none)) := by
      refine ⟨h0, fun s h => ?_⟩
      rcases hi.owned s h with h1 | ⟨x, h1, h2⟩
      · exact .inl h1
      · refine .inr ⟨x, (setSlot_live ..).2 h1, ?_⟩
        rw [setSlot_sl]
        by_cases e : x = q
        · subst e; rw [hs] at h2; cases h2
        · rw [if_neg e]; exact h2
    have hsl : (st.setSlot q (.proxy t [] none)).sl q = .proxy t [] none := by rw [setSlot_sl, if_pos rfl]
    have hl : (st.setSlot q (.proxy t [] none)).live q := (setSlot_live ..).2 hq
    refine ⟨_, hi1, ⟨hl, by rw [setSlot_home]; exact hqh, .inl ⟨_, _, _, hsl⟩⟩,
      fun y e => by simp [St.setSlot, St.setObj, e], setSlot_live _ _ _, setSlot_home _ _ _, rfl, rfl, rfl, rfl, fun m => ?_,
      fun t' p k h => by rw [hsl] at h; cases h⟩
    have hback : (st.setSlot q (.proxy t [] none)).setSlot q (.ref t) = st := by
      have : (st.obj q) = { st.obj q with slot := .ref t } := by rw [← hs]
      simp only [St.setSlot, St.setObj]
      congr 1
      funext y
      by_cases e : y = q
      · subst e; simp only [if_pos]; exact this.symm
      · simp only [if_neg e]
    have h1 : release q st = .ok () st := by
      rw [release, bind_ok (run_deref hq)]
      rw [St.sl] at hs
      simp only [hs]; rfl
    have h2 : release q (st.setSlot q (.proxy t [] none)) = .ok () st := by
      rw [release, bind_ok (run_deref hl)]
      rw [St.sl] at hsl
      simp only [hsl]
      rw [setSlot, bind_ok (run_deref hl), bind_ok (run_modify _ _), hback, collect_id hi, bind_ok (run_deref hq)]
      rfl
    rw [bind_ok h1, bind_ok h2]
  | _ => rw [hs] at hqp; cases hqp

theorem Masks.below {st st1 : St} {q a b : Nat} (h : Masks st q st1) (hi : Inv0 st) (hqh : (st.obj q).home = none) (h2 : Below st1 a b) : Below st a b := by
  refine h2.mono fun x y ⟨h3, e, h4, h5⟩ => ?_
  rw [St.liveS, h.store] at h3
  rw [St.el, h.store] at h4
  have he : e ≠ q := by
    rintro rfl
    rw [(hi.elems x e h3 h4).2.2] at hqh; cases hqh
  rw [St.sl, h.obj e he] at h5
  exact ⟨h3, e, h4, h5⟩

/-- `q` was made another reference. -/
def Turned (st : St) (q : Nat) (st' : St) : Prop := ∃ st1, Masks st q st1 ∧ Safe st1 st'

theorem makeRef_spec {st : St} (hi : Inv st) {o q : Nat} (hq : st.live q) (hqh : (st.obj q).home = none) (hqp : (st.sl q).plain = false)
    (ho : st.live o) (hoh : (st.obj o).home = none) :
    Tri st (makeRef o q) (Keeps st q o ∨ o = q ∧ IsProxy st q) (fun _ => Turned st q) (fun st' => st' = st) := by
  obtain ⟨st1, hM⟩ := masks hi hq hqh hqp
  rw [makeRef]
  refine .after (run_deref ho) ?_
  have hplain : ∀ {t}, Value st t → t ≠ q := by rintro t h rfl; have := h.2; rw [hqp] at this; cases this
  have hval : ∀ {t}, Value st t → Value st1 t := fun {t} h =>
    ⟨(hM.alive t).2 h.1, by rw [St.sl, hM.obj t (hplain h)]; exact h.2⟩
  have hlost : ∀ {t}, Value st t → Lost st1 q t → (st.sl o).tgt = some t → Keeps st q o := by
    rintro t ht ⟨st2, h1, h2⟩ h3
    obtain ⟨h, t', p, k, h4, h5, h6⟩ := h1.dead t ((hM.alive t).2 ht.1) h2
    rw [hM.home] at h4
    exact ⟨t', p, k, t, h, hM.keep _ _ _ h5, h3, h4, hM.below hi.toInv0 hqh h6⟩
  have href : ∀ {t}, Value st t → (refInit t q st = .ub ∧ Lost st1 q t) ∨ ∃ st', refInit t q st = .ok () st' ∧ Turned st q st' := by
    intro t ht
    have hr : refInit t q st1 = refInit t q st := hM.run _
    rcases refInit_spec hM.inv hM.like (hval ht) (hplain ht) with ⟨h1, h2⟩ | ⟨st', h1, h2, _⟩
    · exact .inl ⟨by rw [← hr]; exact h1, h2⟩
    · exact .inr ⟨st', by rw [← hr]; exact h1, st1, hM, h2.inv, h2.bk.toFr⟩
  cases hs : (st.obj o).slot with
  | ref t =>
    rcases checkRef_spec hi.toInv0 ho (t := t) (by rw [St.sl, hs]; rfl) with ⟨h1, h2⟩ | ⟨h1, h2⟩
    · refine .after h2 (.after (run_plain h1.1 h1.2) ?_)
      rcases href h1 with ⟨h3, h4⟩ | ⟨st', h3, h4⟩
      · exact .ub h3 (.inl (hlost h1 h4 (by rw [St.sl, hs]; rfl)))
      · exact .ok h3 h4
    · exact .thr (bind_thr h2) rfl
  | proxy t p k =>
    rcases checkRef_spec hi.toInv0 ho (t := t) (by rw [St.sl, hs]; rfl) with ⟨h1, h2⟩ | ⟨h1, h2⟩
    · refine .after h2 ?_
      by_cases e : o = q
      · rw [if_pos e]; exact .ub rfl (.inr ⟨e, t, p, k, by rw [← e]; exact hs⟩)
      · rw [if_neg e]
        have hr : proxyInit t q p st1 = proxyInit t q p st := hM.run _
        rcases proxyInit_spec hM.inv p hM.like (hval h1) (hplain h1) with ⟨h3, h4⟩ | ⟨st', h3, h4, _⟩
        · exact .ub (hr ▸ h3) (.inl (hlost h1 h4 (by rw [St.sl, hs]; rfl)))
        · exact .ok (hr ▸ h3) ⟨st1, hM, h4.inv, h4.bk.toFr⟩
    · exact .thr (bind_thr h2) rfl
  | _ =>
    have hv : Value st o := ⟨ho, by rw [St.sl, hs]; rfl⟩
    rcases href hv with ⟨_, st2, h1, h2⟩ | ⟨st', h1, h2⟩
    · exact absurd (h1.bk.top o ((hM.alive o).2 ho) (by rw [hM.home]; exact hoh)) h2
    · exact .ok h1 h2

/-! ## Changing values -/

theorem safe_refl {st : St} (hi : Inv st) : Safe st st := ⟨hi, .refl hi.toInv0⟩

theorem set_spec {st : St} (hi : Inv st) (hn : ¬ Cyc st) {d : Nat} {new : Slot} (hd : Value st d) (hg : Good st new) :
    Tri st (setSlot d new) False (fun _ => Safe st) (Safe st) := by
  rcases setSlot_spec hi hd hg with ⟨_, h⟩ | ⟨st', h1, h2⟩
  · exact absurd h hn
  · exact .ok h1 ⟨h2.inv, h2.fr⟩

theorem init_spec {st : St} (hi : Inv st) (hn : ¬ Cyc st) {d : Nat} {mk : Nat → Slot} {c : Cell} (hd : Value st d) (he : c.elems = []) (hc : CellOk c)
    (hmk : ∀ s, (mk s).plain = true ∧ (mk s).sto = some s ∧ Fits (mk s) c) : Tri st (initSlot d mk c) False (fun _ => Safe st) (Safe st) := by
  rcases initSlot_spec hi hd he hc hmk with ⟨_, h⟩ | ⟨st', h1, h2⟩
  · exact absurd h hn
  · exact .ok h1 ⟨h2.inv, h2.bk.toFr⟩

theorem assignLit_spec {st : St} (hi : Inv st) (hn : ¬ Cyc st) {d : Nat} (hd : Value st d) (v : Lit) :
    Tri st (assignLit d v) False (fun _ => Safe st) (Safe st) := by
  cases v with
  | null => exact set_spec hi hn hd (null_good st)
  | sca c => exact set_spec hi hn hd ⟨rfl, fun a h => by cases h⟩
  | str b => exact init_spec hi hn hd rfl trivial fun s => ⟨rfl, rfl, trivial⟩
  | list => exact init_spec hi hn hd rfl trivial fun s => ⟨rfl, rfl, trivial⟩
  | map => exact init_spec hi hn hd rfl (by simp [CellOk, AMap.Sorted]) fun s => ⟨rfl, rfl, trivial⟩
  | blob b => exact init_spec hi hn hd rfl trivial fun s => ⟨rfl, rfl, trivial⟩

theorem dropping {st : St} (hi : Inv st) (hn : ¬ Cyc st) {s : Nat} (hs : st.liveS s) {c : Cell} {D : List Nat}
    (hfit : ∀ sl, Fits sl (st.store s).cell → Fits sl c) (hok : CellOk c) (hD : ∀ x, x ∈ D → x ∈ st.el s)
    (hel : ∀ x, x ∈ c.elems ↔ x ∈ st.el s ∧ x ∉ D) (hnd : c.elems.Nodup) : Tri st (drop s c D) False (fun _ => Safe st) (Safe st) := by
  rcases drop_spec hi hs hfit hok hD hel hnd with ⟨_, h⟩ | ⟨st', h1, h2⟩
  · exact absurd h hn
  · exact .ok h1 ⟨h2.inv, h2.fr⟩

theorem erase_split {m : List (Bytes × Nat)} {k : Bytes} {x : Nat} (h : AMap.get m k = some x) :
    ∃ a b, m = a ++ (k, x) :: b ∧ AMap.erase m k = a ++ b := by
  induction m with
  | nil => cases h
  | cons p r ih =>
    obtain ⟨k', v'⟩ := p
    rw [AMap.get] at h
    rw [AMap.erase]
    by_cases e : k' = k
    · rw [if_pos e] at h; cases h
      rw [if_pos e]
      exact ⟨[], r, by rw [e]; rfl, rfl⟩
    · rw [if_neg e] at h
      rw [if_neg e]
      obtain ⟨a, b, h1, h2⟩ := ih h
      exact ⟨(k', v') :: a, b, by rw [h1]; rfl, by rw [h2]; rfl⟩

theorem eraseElem_spec {st : St} (hi : Inv st) (hn : ¬ Cyc st) {t : Nat} (ht : Value st t) (e : PathElem) :
    Tri st (eraseElem t e) False (fun _ => Safe st) (Safe st) := by
  rw [eraseElem]
  refine .after (run_plain ht.1 ht.2) ?_
  cases hs : st.sl t with
  | null => cases e <;> exact .ok rfl (safe_refl hi)
  | list s =>
    cases e with
    | key k => exact .thr rfl (safe_refl hi)
    | index i =>
      obtain ⟨h1, cap, es, h2⟩ := cell_list hi.toInv0 ht.1 hs
      simp only
      refine .after (run_load h1) ?_
      simp only [h2]
      have hel : st.el s = es := by rw [St.el, h2]; rfl
      have hnd : es.Nodup := hel ▸ hi.nodup s h1
      by_cases c1 : (i + 1).toNat < es.length % 2 ^ 32
      · rw [if_pos c1]
        cases hx : es[i.toNat]? with
        | some x =>
          have hm : x ∈ st.el s := by rw [hel]; exact List.mem_of_getElem? hx
          exact set_spec hi hn (elem_value hi.toInv0 ht (by rw [hs]; rfl) hm) (null_good st)
        | none => exact .thr rfl (safe_refl hi)
      · rw [if_neg c1]
        by_cases c2 : i.toNat < es.length % 2 ^ 32
        · rw [if_pos c2, List.dropLast_eq_take]
          exact dropping hi hn h1 (fun sl h => by rw [h2] at h; exact fits_list sl h) trivial (fun x hx => by rw [hel]; exact List.mem_of_mem_drop hx)
            (fun x => by rw [hel]; exact take_drop_nodup hnd _ x) (List.Nodup.sublist (List.take_sublist _ _) hnd)
        · rw [if_neg c2]; exact .ok rfl (safe_refl hi)
  | map s =>
    cases e with
    | index i => exact .thr rfl (safe_refl hi)
    | key k =>
      obtain ⟨h1, m, h2⟩ := cell_map hi.toInv0 ht.1 hs
      simp only
      refine .after (run_load h1) ?_
      simp only [h2]
      cases hg : AMap.get m k with
      | none => exact .ok rfl (safe_refl hi)
      | some x =>
        obtain ⟨a, b, h3, h4⟩ := erase_split hg
        have hel : st.el s = a.map (·.2) ++ x :: b.map (·.2) := by rw [St.el, h2, h3]; simp [Cell.elems]
        have hel2 : (Cell.map (AMap.erase m k)).elems = a.map (·.2) ++ b.map (·.2) := by rw [h4]; simp [Cell.elems]
        have hnd := hi.nodup s h1
        rw [hel, List.nodup_append, List.nodup_cons] at hnd
        have hsort : AMap.Sorted m := by have := hi.cellOk s h1; rwa [h2] at this
        refine dropping hi hn h1 (fun sl h => by rw [h2] at h; exact fits_map sl h) (AMap.sorted_erase hsort k) (fun y hy => ?_) (fun y => ?_) ?_
        · rw [List.mem_singleton.1 hy, hel]; simp
        · rw [hel2, hel, List.mem_append, List.mem_append, List.mem_cons, List.mem_singleton]
          constructor
          · rintro (h | h)
            · exact ⟨.inl h, hnd.2.2 y h x (by simp)⟩
            · exact ⟨.inr (.inr h), by rintro rfl; exact hnd.2.1.1 h⟩
          · rintro ⟨h | h | h, h5⟩
            · exact .inl h
            · exact absurd h h5
            · exact .inr h
        · rw [hel2, List.nodup_append]
          exact ⟨hnd.1, hnd.2.1.2, fun y hy z hz => hnd.2.2 y hy z (List.mem_cons_of_mem _ hz)⟩
  | _ => cases e <;> exact .thr rfl (safe_refl hi)

theorem setCell_inv {st : St} (hi : Inv st) {s : Nat} {b b' : Bytes} (hs : st.liveS s) (hc : (st.store s).cell = .str b) : Inv (st.setCell s (.str b')) := by
  have hl : ∀ y, ((st.setCell s (.str b')).store y).alive = (st.store y).alive := by
    intro y; by_cases e : y = s <;> simp [St.setCell, e]
  have he : ∀ y, (st.setCell s (.str b')).el y = st.el y := by
    intro y
    by_cases e : y = s
    · subst e; simp [St.el, St.setCell, hc, Cell.elems]
    · simp [St.el, St.setCell, e]
  have hf : ∀ y sl, Fits sl (st.store y).cell → Fits sl ((st.setCell s (.str b')).store y).cell := by
    intro y sl h
    by_cases e : y = s
    · subst e
      simp only [St.setCell, if_pos]
      rw [hc] at h
      cases sl <;> first | exact h | trivial
    · simp only [St.setCell, if_neg e]; exact h
  constructor
  · exact {
      objBound := hi.objBound
      storeBound := fun y h => hi.storeBound y (by rw [St.liveS, ← hl]; exact h)
      rdBound := hi.rdBound
      stoLive := fun x y h h2 => by rw [St.liveS, hl]; exact hi.stoLive x y h h2
      holdLive := fun y h => by rw [St.liveS, hl]; exact hi.holdLive y h
      fits := fun x y h h2 => hf y _ (hi.fits x y h h2)
      cellOk := fun y h => by
        by_cases e : y = s
        · subst e; simp only [St.setCell, if_pos]; trivial
        · simp only [St.setCell, if_neg e]; rw [St.liveS, hl] at h; exact hi.cellOk y h
      elems := fun y x h h2 => by rw [he] at h2; rw [St.liveS, hl] at h; exact hi.elems y x h h2
      nodup := fun y h => by rw [he]; rw [St.liveS, hl] at h; exact hi.nodup y h
      home := fun x y h h2 => by rw [St.liveS, hl, he]; exact hi.home x y h h2
      plainRd := hi.plainRd
      plainRdInj := hi.plainRdInj
      refRd := hi.refRd
      tgtBound := hi.tgtBound
      env := hi.env
      envInj := hi.envInj }
  · intro y h
    rw [St.liveS, hl] at h
    exact hi.owned y h

theorem setCell_fr {st : St} (hi : Inv st) {s : Nat} {b b' : Bytes} (hc : (st.store s).cell = .str b) : Fr st (st.setCell s (.str b')) where
  env := rfl
  holds := rfl
  nObj := Nat.le_refl _
  nStore := Nat.le_refl _
  old _ _ h := ⟨h, rfl⟩
  top _ h _ := h
  new x h h2 := by have := hi.objBound x h2; omega
  kind y _ h := by
    by_cases e : y = s
    · subst e
      simp only [St.liveS, St.setCell, if_pos] at h ⊢
      refine ⟨h, fun sl h => ?_⟩
      rw [hc] at h
      cases sl <;> first | exact h | trivial
    · simp only [St.liveS, St.setCell, if_neg e] at h ⊢
      exact ⟨h, fun _ h => h⟩
  stays _ _ _ := .refl _

theorem clearObj_spec {st : St} (hi : Inv st) (hn : ¬ Cyc st) {t : Nat} (ht : Value st t) :
    Tri st (clearObj t) False (fun _ => Safe st) (Safe st) := by
  rw [clearObj]
  refine .after (run_plain ht.1 ht.2) ?_
  cases hs : st.sl t with
  | null => exact .ok rfl (safe_refl hi)
  | str s =>
    obtain ⟨h1, b, h2⟩ := cell_str hi.toInv0 ht.1 hs
    simp only
    refine .after (run_load h1) ?_
    simp only [h2]
    exact .ok rfl ⟨setCell_inv hi h1 h2, setCell_fr hi h2⟩
  | list s =>
    obtain ⟨h1, cap, es, h2⟩ := cell_list hi.toInv0 ht.1 hs
    simp only
    refine .after (run_load h1) ?_
    simp only [h2]
    have hel : st.el s = es := by rw [St.el, h2]; rfl
    exact dropping hi hn h1 (fun sl h => by rw [h2] at h; exact fits_list sl h) trivial (fun x hx => by rw [hel]; exact hx)
      (fun x => by rw [hel]; simp [Cell.elems]) List.nodup_nil
  | map s =>
    obtain ⟨h1, m, h2⟩ := cell_map hi.toInv0 ht.1 hs
    simp only
    refine .after (run_load h1) ?_
    simp only [h2]
    have hel : st.el s = m.map (·.2) := by rw [St.el, h2]; rfl
    exact dropping hi hn h1 (fun sl h => by rw [h2] at h; exact fits_map sl h) (by simp [CellOk, AMap.Sorted]) (fun x hx => by rw [hel]; exact hx)
      (fun x => by rw [hel]; simp [Cell.elems]) List.nodup_nil
  | sca c => exact set_spec hi hn ht (null_good st)
  | blob s => exact set_spec hi hn ht (null_good st)
  | ref r => exact absurd ht.2 (by rw [hs]; simp [Slot.plain])
  | proxy r p k => exact absurd ht.2 (by rw [hs]; simp [Slot.plain])

/-- What is seen of a value. -/
def seen (st : St) (t : Nat) : View :=
  match st.sl t with
  | .null => .null
  | .sca c => .sca c
  | .str s => match (st.store s).cell with | .str b => .str b | _ => .unit
  | .list s => match (st.store s).cell with | .list _ es => .list es.length | _ => .unit
  | .map s => match (st.store s).cell with | .map m => .map (m.map (·.1)) | _ => .unit
  | .blob s => match (st.store s).cell with | .blob b => .blob b | _ => .unit
  | _ => .unit

theorem view_spec {st : St} (hi : Inv0 st) {t : Nat} (ht : Value st t) : view t st = .ok (seen st t) st := by
  rw [view, bind_ok (run_plain ht.1 ht.2), seen]
  cases hs : st.sl t with
  | null => rfl
  | sca c => rfl
  | str s =>
    obtain ⟨h1, b, h2⟩ := cell_str hi ht.1 hs
    simp only; rw [bind_ok (run_load h1)]; simp only [h2]; rfl
  | list s =>
    obtain ⟨h1, cap, es, h2⟩ := cell_list hi ht.1 hs
    simp only; rw [bind_ok (run_load h1)]; simp only [h2]; rfl
  | map s =>
    obtain ⟨h1, m, h2⟩ := cell_map hi ht.1 hs
    simp only; rw [bind_ok (run_load h1)]; simp only [h2]; rfl
  | blob s =>
    obtain ⟨h1, b, h2⟩ := cell_blob hi ht.1 hs
    simp only; rw [bind_ok (run_load h1)]; simp only [h2]; rfl
  | ref r => exact absurd ht.2 (by rw [hs]; simp [Slot.plain])
  | proxy r p k => exact absurd ht.2 (by rw [hs]; simp [Slot.plain])

theorem Extends.fr {st st' : St} {s cap : Nat} {es : List Nat} {slots : List Slot} (hE : Extends st s es slots st') (hi : Inv st) (hs : st.liveS s)
    (hc : (st.store s).cell = .list cap es) : Fr st st' where
  env := hE.env
  holds := hE.holds
  nObj := hE.nObj
  nStore := Nat.le_of_eq hE.nStore.symm
  old y hy hl := by
    obtain ⟨h5, h6⟩ := hE.old y hy hl
    exact ⟨h5, by rw [h6]⟩
  top y hy hh := by
    have : y ∉ es := by
      intro hm
      have := (hi.elems s y hs (by rw [St.el, hc]; exact hm)).2.2
      rw [this] at hh; cases hh
    rw [St.live, hE.keep y hy this]; exact hy
  new y hy hl := by rw [hE.new y hy hl]; simp
  kind a ha hl := by
    obtain ⟨cap', es', h1, _⟩ := hE.cell
    by_cases e : a = s
    · subst e
      exact ⟨hs, fun sl h => by rw [hc] at h; rw [h1]; exact fits_list sl h⟩
    · rw [St.liveS, hE.store a e] at hl
      rw [hE.store a e]
      exact ⟨hl, fun _ h => h⟩
  stays y hy hl := by rw [(hE.old y (hi.objBound y hy) hl).2]; exact .refl _

theorem asList_spec {st : St} (hi : Inv st) {t : Nat} (ht : Value st t) : ∃ st', asList t st = .ok () st' ∧ Begins st st' t := by
  rw [asList, bind_ok (run_plain ht.1 ht.2)]
  cases hs : st.sl t with
  | null =>
    obtain ⟨st', h1, h2, _⟩ := init_begins hi (mk := .list) (c := .list 0 []) ht.1 hs rfl trivial (fun s => ⟨rfl, rfl, trivial⟩)
    exact ⟨st', h1, h2⟩
  | _ => exact ⟨st, rfl, .refl hi ht⟩

theorem appendObj_spec {st : St} (hi : Inv st) (grow : Nat → Nat → Nat) {t d : Nat} (ht : Value st t) (hd : Value st d) (hdh : (st.obj d).home = none)
    (htd : t ≠ d) : Tri st (appendObj grow t d) False (fun _ => Safe st) (Safe st) := by
  rw [appendObj]
  obtain ⟨st1, h1, h2⟩ := asList_spec hi ht
  refine .after h1 ?_
  refine .after (run_plain h2.value.1 h2.value.2) ?_
  have hd1 := h2.frame d hd.1 hdh (Ne.symm htd)
  have hdv : Value st1 d := ⟨by rw [St.live, hd1]; exact hd.1, by rw [St.sl, hd1]; exact hd.2⟩
  cases hs : st1.sl t with
  | list s =>
    simp only
    refine .after (run_plain hdv.1 hdv.2) ?_
    obtain ⟨h3, cap, es, h4⟩ := cell_list h2.inv.toInv0 h2.value.1 hs
    refine .after (run_load h3) ?_
    simp only [h4]
    have hE := extend_extends h2.inv grow h3 h4 (slots := [st1.sl d]) (fun sl h => by
      rw [List.mem_singleton.1 h]; exact hdv.good h2.inv.toInv0)
    exact .ok rfl (safe_trans hi.toInv0 h2.bk.toFr ⟨hE.inv, hE.fr h2.inv h3 h4⟩)
  | _ => exact .thr rfl ⟨h2.inv, h2.bk.toFr⟩

theorem existsObj_spec {st : St} (hi : Inv st) {o : Nat} (ho : st.live o) : ∃ b, existsObj o st = .ok b st := by
  rw [existsObj, bind_ok (run_deref ho)]
  cases hs : (st.obj o).slot with
  | ref t =>
    obtain ⟨k, h1, _⟩ := hi.refRd o t ho (by rw [St.sl, hs]; rfl)
    exact ⟨st.valid k, by simp only [h1]; rfl⟩
  | proxy t p k =>
    obtain ⟨k', h1, h2, h3⟩ := hi.refRd o t ho (by rw [St.sl, hs]; rfl)
    simp only [h1]
    have hq : existsObj.isValid (some k') st = .ok (st.valid k') st := rfl
    rw [bind_ok hq]
    cases hv : st.valid k' with
    | false => exact ⟨false, rfl⟩
    | true =>
      have hl := h2.1 hv
      obtain ⟨r, h4, _⟩ := find_spec hi.toInv0 p (t := t) ⟨hl, (h3 hl).1⟩
      exact ⟨r.isSome, by simp only [if_true]; rw [bind_ok h4]; rfl⟩
  | _ => exact ⟨true, rfl⟩

end Verif.Ref
