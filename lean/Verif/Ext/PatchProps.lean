import Verif.Ext.Patch
import Verif.Ext.EditProps
/-!
# C40: a failing JSON Patch leaves the document unchanged
-/

namespace Verif.Ext
open Verif

theorem erasePath_append {v c : Val} {q : VPath} (e : PathElem) (h : getPath? v q = some c) :
    erasePath v (q ++ [e]) false = (storeAt v q (eraseElem c e).1, (eraseElem c e).2) := by
  induction q generalizing v with
  | nil =>
    cases h
    simp only [List.nil_append, erasePath, storeAt]
  | cons e1 q ih =>
    rw [getPath?_cons] at h
    cases hc : getElem? v e1 with
    | none => rw [hc] at h; cases h
    | some d =>
      rw [hc] at h
      obtain ⟨e2, r, hr⟩ : ∃ e2 r, q ++ [e] = e2 :: r := by
        cases q with
        | nil => exact ⟨e, [], rfl⟩
        | cons a b => exact ⟨a, b ++ [e], rfl⟩
      have ih := ih h
      rw [hr] at ih
      rw [List.cons_append, hr]
      simp only [erasePath, hc, ih, storeAt]
      cases (eraseElem c e).2 <;> simp

theorem undoStep_add {v c : Val} {q : VPath} {e : PathElem} (x : Val) (h : getPath? v q = some c) :
    undoStep v (.add (q ++ [e]) x) = (storeAt v q (undoAdd c e x).1, (undoAdd c e x).2) := by
  simp only [undoStep, List.getLast?_append, List.getLast?_singleton, Option.some_or, List.dropLast_concat, h]

theorem set_set_back {m : List (Bytes × Val)} (hs : AMap.Sorted m) {k : Bytes} {c x : Val} (h : AMap.get m k = some c) :
    AMap.set (AMap.set m k x) k c = m := by
  refine AMap.ext (AMap.sorted_set (AMap.sorted_set hs _ _) k c) hs fun k' => ?_
  by_cases hk : k' = k
  · subst hk; rw [AMap.get_set_self, h]
  · rw [AMap.get_set_other _ _ _ _ hk, AMap.get_set_other _ _ _ _ hk]

theorem erase_set_back {m : List (Bytes × Val)} (hs : AMap.Sorted m) {k : Bytes} {x : Val} (h : AMap.get m k = none) :
    AMap.erase (AMap.set m k x) k = m := by
  refine AMap.ext (AMap.sorted_erase (AMap.sorted_set hs _ _) k) hs fun k' => ?_
  by_cases hk : k' = k
  · subst hk; rw [AMap.get_erase_self (AMap.sorted_set hs _ _), h]
  · rw [AMap.get_erase_other _ _ _ hk, AMap.get_set_other _ _ _ _ hk]

theorem wf_sorted {m : List (Bytes × Val)} (h : (Val.map m).WF) : AMap.Sorted m := by
  simp only [Val.WF] at h; exact h.1

/-- The pointer names an element that is in a list already. -/
def OverItem (v : Val) (ptr : Bytes) : Prop :=
  ∃ pre t q xs n, components ptr = some (pre ++ [t]) ∧ walk v pre = some q ∧ getPath? v q = some (.list xs) ∧
    isIndex t = some n ∧ n % 2 ^ 32 < xs.length

theorem addOp_undo {p : Nat} {v v' x : Val} (hw : v.WF) (hf : ListsFit v) {ptr : Bytes} {r : PRes}
    (hf' : ListsFit v') (hs : ¬ OverItem v ptr) (h : pointerOp p v (.add x) ptr = (v', .ok r)) :
    undoStep v' (undoOf r) = (v, .ok ()) := by
  unfold pointerOp at h
  split at h
  · cases h
  · rename_i ts hts
    rcases tokens_cases ts with rfl | ⟨pre, t, rfl⟩
    · cases h; rfl
    · obtain ⟨h1, h2⟩ := opTokens_walk p (.add x) t hw (pre := pre)
      cases hwk : walk v pre with
      | none => rw [h1 hwk] at h; cases h
      | some q =>
        obtain ⟨c, hc⟩ := walk_get hwk
        rw [h2 q c hwk hc] at h
        rcases hl : opLast p c t (.add x) with ⟨c', o⟩
        rw [hl] at h
        cases o with
        | throw e => cases h
        | ub => cases h
        | ok r' =>
          cases h
          have hwc := getPath?_wf hw hc
          have back : ∀ c', storeAt (storeAt v q c') q c = v := fun c' => by
            rw [storeAt_storeAt hc, storeAt_same hw hc]
          cases c with
          | map m =>
            cases hl
            have hsm := wf_sorted hwc
            cases hg : AMap.get m t with
            | none =>
              simp only [undoOf, addPath, hg, undoStep]
              rw [erasePath_append _ (getPath?_storeAt hc _)]
              simp only [eraseElem, eraseKey, erase_set_back hsm hg, ofWr, back]
            | some old =>
              simp only [undoOf, addPath, hg]
              rw [undoStep_add _ (getPath?_storeAt hc _)]
              simp only [undoAdd, set_set_back hsm hg, back]
          | list xs =>
            have hxs : xs.length < 2 ^ 32 := hf q xs hc
            have key : ∀ n, n = xs.length →
                (storeAt v q (.list (xs ++ [x]))) = (storeAt v q c') →
                undoStep (storeAt v q (.list (xs ++ [x]))) (.remove (q ++ [.index (UInt32.ofNat n)])) = (v, .ok ()) := by
              rintro n rfl he
              have hfl : (xs ++ [x]).length < 2 ^ 32 := hf' q _ (by rw [← he]; exact getPath?_storeAt hc _)
              simp only [undoStep]
              rw [erasePath_append _ (getPath?_storeAt hc _),
                (erase_index hfl).1 (by rw [ofNat_toNat hxs]; simp)]
              simp only [List.dropLast_concat, ofWr, back]
            simp only [opLast, opList] at hl
            split at hl
            · cases hl
              exact key _ rfl rfl
            · split at hl
              · cases hl
              · rename_i n hn
                simp only [opIndex] at hl
                split at hl
                · rename_i hle
                  have hmod : n % 2 ^ 32 = n := Nat.mod_eq_of_lt (by omega)
                  have hnl : n = xs.length := by
                    have : ¬ n % 2 ^ 32 < xs.length := fun hlt => hs ⟨pre, t, q, xs, n, hts, hwk, hc, hn, hlt⟩
                    omega
                  cases hl
                  have hnone : xs[n % 2 ^ 32]? = none := List.getElem?_eq_none (by omega)
                  have hlist : xs.take n ++ x :: xs.drop n = xs ++ [x] := by
                    rw [hnl, List.take_length, List.drop_length]
                  simp only [undoOf, addPath, hnone]
                  rw [hlist]
                  exact key n hnl (by rw [hlist])
                · cases hl
          | _ => cases hl

theorem removeOp_undo {p : Nat} {v v' : Val} (hw : v.WF) {ptr : Bytes} {r : PRes}
    (h : pointerOp p v .remove ptr = (v', .ok r)) : undoStep v' (.add r.path r.value) = (v, .ok ()) := by
  unfold pointerOp at h
  split at h
  · cases h
  · rename_i ts hts
    rcases tokens_cases ts with rfl | ⟨pre, t, rfl⟩
    · cases h; rfl
    · obtain ⟨h1, h2⟩ := opTokens_walk p .remove t hw (pre := pre)
      cases hwk : walk v pre with
      | none => rw [h1 hwk] at h; cases h
      | some q =>
        obtain ⟨c, hc⟩ := walk_get hwk
        rw [h2 q c hwk hc] at h
        rcases hl : opLast p c t .remove with ⟨c', o⟩
        rw [hl] at h
        cases o with
        | throw e => cases h
        | ub => cases h
        | ok r' =>
          cases h
          obtain ⟨m, d, rfl, hd, rfl, rfl⟩ := opLast_remove hl
          have hsm := wf_sorted (getPath?_wf hw hc)
          simp only [addPath]
          rw [undoStep_add _ (getPath?_storeAt hc _)]
          simp only [undoAdd, set_erase hsm hd, storeAt_storeAt hc, storeAt_same hw hc]

theorem replaceOp_undo {p : Nat} {v v' x : Val} (hw : v.WF) {ptr : Bytes} {r : PRes} (hs : ¬ OverItem v ptr)
    (h : pointerOp p v .get ptr = (v', .ok r)) :
    undoStep (setPath v' r.path x).1 (.add r.path r.value) = (v, .ok ()) := by
  obtain ⟨rfl, _, hr⟩ := pointerOp_get hw h
  have hr := hr r rfl
  rw [setPath_existing hr]
  unfold pointerOp at h
  split at h
  · cases h
  · rename_i ts hts
    rcases tokens_cases ts with rfl | ⟨pre, t, rfl⟩
    · cases h; rfl
    · obtain ⟨h1, h2⟩ := opTokens_walk p .get t hw (pre := pre)
      cases hwk : walk v' pre with
      | none => rw [h1 hwk] at h; cases h
      | some q =>
        obtain ⟨c, hc⟩ := walk_get hwk
        rw [h2 q c hwk hc] at h
        rcases hl : opLast p c t .get with ⟨c', o⟩
        rw [hl] at h
        simp only [Prod.mk.injEq] at h
        obtain ⟨_, h⟩ := h
        cases o with
        | throw e => cases h
        | ub => cases h
        | ok r' =>
          cases h
          cases c with
          | map m =>
            simp only [opLast, opMap] at hl
            split at hl
            · rename_i d hd
              cases hl
              have hsm := wf_sorted (getPath?_wf hw hc)
              have e2 : getElem? (.map m) (.key t) = some d := hd
              simp only [addPath]
              rw [storeAt_append _ _ _ _ _ hc]
              simp only [storeAt, e2, putElem]
              rw [undoStep_add _ (getPath?_storeAt hc _)]
              simp only [undoAdd, set_set_back hsm hd, storeAt_storeAt hc, storeAt_same hw hc]
            · cases hl
          | list xs =>
            simp only [opLast, opList] at hl
            split at hl
            · cases hl
            · split at hl
              · cases hl
              · rename_i n hn
                simp only [opIndex] at hl
                split at hl
                · rename_i d hd
                  exact absurd ⟨pre, t, q, xs, n, hts, hwk, hc, hn, getElem?_lt hd⟩ hs
                · cases hl
          | _ => cases hl

theorem pointerOp_test {p : Nat} {v v' x : Val} (hw : v.WF) {ptr : Bytes} {o : Out PRes}
    (h : pointerOp p v (.test x) ptr = (v', o)) : v' = v := by
  unfold pointerOp at h
  split at h
  · cases h; rfl
  · rename_i ts hts
    rcases tokens_cases ts with rfl | ⟨pre, t, rfl⟩
    · cases h; rfl
    · obtain ⟨h1, h2⟩ := opTokens_walk p (.test x) t hw (pre := pre)
      cases hwk : walk v pre with
      | none => rw [h1 hwk] at h; cases h; rfl
      | some q =>
        obtain ⟨c, hc⟩ := walk_get hwk
        rw [h2 q c hwk hc] at h
        have : (opLast p c t (.test x)).1 = c := by
          cases c with
          | map m =>
            simp only [opLast, opMap]
            split <;> rfl
          | list xs =>
            simp only [opLast, opList]
            split
            · rfl
            · split
              · rfl
              · simp only [opIndex]; split <;> rfl
          | _ => rfl
        cases h
        rw [this, storeAt_same hw hc]

theorem pointerOp_add_wf {p : Nat} {v v' x : Val} (hw : v.WF) (hx : x.WF) {ptr : Bytes} {r : PRes}
    (h : pointerOp p v (.add x) ptr = (v', .ok r)) : v'.WF := by
  unfold pointerOp at h
  split at h
  · cases h
  · rename_i ts hts
    rcases tokens_cases ts with rfl | ⟨pre, t, rfl⟩
    · cases h; exact hx
    · obtain ⟨h1, h2⟩ := opTokens_walk p (.add x) t hw (pre := pre)
      cases hwk : walk v pre with
      | none => rw [h1 hwk] at h; cases h
      | some q =>
        obtain ⟨c, hc⟩ := walk_get hwk
        have hwc := getPath?_wf hw hc
        rw [h2 q c hwk hc] at h
        rcases hl : opLast p c t (.add x) with ⟨c', o⟩
        rw [hl] at h
        cases o with
        | throw e => cases h
        | ub => cases h
        | ok r' =>
          cases h
          refine storeAt_wf hw ?_
          cases c with
          | map m =>
            cases hl
            simp only [Val.WF, WFMap_iff] at hwc ⊢
            refine ⟨AMap.sorted_set hwc.1 _ _, fun pr hp => ?_⟩
            rcases AMap.mem_set hp with rfl | hp
            · exact hx
            · exact hwc.2 _ hp
          | list xs =>
            simp only [Val.WF, WFList_iff] at hwc
            have key : ∀ n, (Val.list (xs.take n ++ x :: xs.drop n)).WF := by
              intro n
              simp only [Val.WF, WFList_iff]
              intro y hy
              simp only [List.mem_append, List.mem_cons] at hy
              rcases hy with hy | rfl | hy
              · exact hwc y (List.mem_of_mem_take hy)
              · exact hx
              · exact hwc y (List.mem_of_mem_drop hy)
            simp only [opLast, opList] at hl
            split at hl
            · cases hl
              have := key xs.length
              rw [List.take_length, List.drop_length] at this
              exact this
            · split at hl
              · cases hl
              · simp only [opIndex] at hl
                split at hl <;> cases hl
                exact key _
          | _ => cases hl

/-! ## Lists stay short -/

theorem putElem_fits {v c : Val} {e : PathElem} (hv : ListsFit v) (hc : ListsFit c) : ListsFit (putElem v e c) := by
  cases e with
  | key k =>
    cases v with
    | map m =>
      refine fits_map fun k' d hd => ?_
      by_cases hk : k' = k
      · subst hk; rw [AMap.get_set_self] at hd; cases hd; exact hc
      · rw [AMap.get_set_other _ _ _ _ hk] at hd
        exact hv.child (e := .key k') hd
    | _ => exact hv
  | index i =>
    cases v with
    | list xs =>
      refine fits_list (by rw [List.length_set]; exact hv.here xs rfl) fun d hd => ?_
      rcases List.mem_or_eq_of_mem_set hd with hd | rfl
      · obtain ⟨i, hi⟩ := List.getElem?_of_mem hd
        exact hv.child (e := .index (UInt32.ofNat i)) (by rw [getElem?_ofNat (item_lt hv hi)]; exact hi)
      · exact hc
    | _ => exact hv

theorem storeAt_fits {v x : Val} {q : VPath} (hv : ListsFit v) (hx : ListsFit x) : ListsFit (storeAt v q x) := by
  induction q generalizing v with
  | nil => exact hx
  | cons e q ih =>
    simp only [storeAt]
    split
    · rename_i c hc; exact putElem_fits hv (ih (hv.child hc))
    · exact hv

theorem getPath?_fits {v c : Val} {q : VPath} (hv : ListsFit v) (h : getPath? v q = some c) : ListsFit c :=
  fun q' xs hq => hv (q ++ q') xs (by rw [getPath?_append, h]; exact hq)

theorem pointerOp_remove_fits {p : Nat} {v v' : Val} (hw : v.WF) (hf : ListsFit v) {ptr : Bytes} {r : PRes}
    (h : pointerOp p v .remove ptr = (v', .ok r)) : ListsFit v' := by
  unfold pointerOp at h
  split at h
  · cases h
  · rename_i ts _
    rcases tokens_cases ts with rfl | ⟨pre, t, rfl⟩
    · cases h; exact fits_leaf rfl rfl
    · obtain ⟨h1, h2⟩ := opTokens_walk p .remove t hw (pre := pre)
      cases hwk : walk v pre with
      | none => rw [h1 hwk] at h; cases h
      | some q =>
        obtain ⟨c, hc⟩ := walk_get hwk
        rw [h2 q c hwk hc] at h
        rcases hl : opLast p c t .remove with ⟨c', o⟩
        rw [hl] at h
        cases o with
        | throw e => cases h
        | ub => cases h
        | ok r' =>
          cases h
          obtain ⟨m, d, rfl, hd, rfl, rfl⟩ := opLast_remove hl
          have hfc := getPath?_fits hf hc
          refine storeAt_fits hf (fits_map fun k d hd => ?_)
          by_cases hk : k = t
          · subst hk; rw [AMap.get_erase_self (wf_sorted (getPath?_wf hw hc))] at hd; cases hd
          · rw [AMap.get_erase_other _ _ _ hk] at hd
            exact hfc.child (e := .key k) hd

theorem pointerOp_remove_value_wf {p : Nat} {v v' : Val} (hw : v.WF) {ptr : Bytes} {r : PRes}
    (h : pointerOp p v .remove ptr = (v', .ok r)) : r.value.WF := by
  unfold pointerOp at h
  split at h
  · cases h
  · obtain ⟨_, q, _, hq⟩ := opTokens_remove hw h
    exact getPath?_wf hw hq

/-! ## One operation -/

theorem undoAll_append (v : Val) (a b : List Undo) :
    undoAll v (a ++ b) = match undoAll v a with
      | (v', .ok _) => undoAll v' b
      | r => r := by
  induction a generalizing v with
  | nil => rfl
  | cons u us ih =>
    simp only [List.cons_append, undoAll]
    rcases undoStep v u with ⟨v', o⟩
    cases o with
    | ok _ => exact ih v'
    | throw e => rfl
    | ub => rfl

/-- The operation does not put a value over, or before, an element a list already has. -/
def OpSafe (p : Nat) (flt : UInt64 → Bytes) (v d : Val) : Prop :=
  ∀ oper ptr, textField flt d kOp = .ok oper → textField flt d kPath = .ok ptr →
    (oper = wAdd ∨ oper = wReplace ∨ oper = wCopy → ¬ OverItem v ptr) ∧
    (oper = wMove → ∀ src v1 r, textField flt d kFrom = .ok src →
      pointerOp p v .remove src = (v1, .ok r) → ¬ OverItem v1 ptr)

/-- What is wanted of one operation: its undo entries lead back. -/
def Undoes (v : Val) (res : Done) : Prop :=
  res.2.2 = .ub ∨ (res.1.WF ∧ (res.2.2 = .ok true → ListsFit res.1 → undoAll res.1 res.2.1.reverse = (v, .ok ())) ∧
    (res.2.2 ≠ .ok true → undoAll res.1 res.2.1.reverse = (v, .ok ())))

theorem reading_undoes {α : Type} {v : Val} (hw : v.WF) {o : Out α} {f : α → Done}
    (h : ∀ a, o = .ok a → Undoes v (f a)) : Undoes v (reading v o f) := by
  cases o with
  | ok a => exact h a rfl
  | throw e => exact .inr ⟨hw, nofun, fun _ => rfl⟩
  | ub => exact .inl rfl

theorem pointerOp_success {p : Nat} {v v' x : Val} (hw : v.WF) {ptr : Bytes} {r : PRes}
    (h : pointerOp p v (.add x) ptr = (v', .ok r)) : r.success = true := by
  unfold pointerOp at h
  split at h
  · cases h
  · rename_i ts hts
    rcases tokens_cases ts with rfl | ⟨pre, t, rfl⟩
    · cases h; rfl
    · obtain ⟨h1, h2⟩ := opTokens_walk p (.add x) t hw (pre := pre)
      cases hwk : walk v pre with
      | none => rw [h1 hwk] at h; cases h
      | some q =>
        obtain ⟨c, hc⟩ := walk_get hwk
        rw [h2 q c hwk hc] at h
        rcases hl : opLast p c t (.add x) with ⟨c', o⟩
        rw [hl] at h
        cases o with
        | throw e => cases h
        | ub => cases h
        | ok r' =>
          cases h
          show r'.success = true
          cases c with
          | map m => cases hl; rfl
          | list xs =>
            simp only [opLast, opList] at hl
            split at hl
            · cases hl; rfl
            · split at hl
              · cases hl
              · simp only [opIndex] at hl
                split at hl <;> cases hl
                rfl
          | _ => cases hl

theorem pointerOp_remove_success {p : Nat} {v v' : Val} (hw : v.WF) {ptr : Bytes} {r : PRes}
    (h : pointerOp p v .remove ptr = (v', .ok r)) : r.success = true := by
  unfold pointerOp at h
  split at h
  · cases h
  · rename_i ts hts
    rcases tokens_cases ts with rfl | ⟨pre, t, rfl⟩
    · cases h; rfl
    · obtain ⟨h1, h2⟩ := opTokens_walk p .remove t hw (pre := pre)
      cases hwk : walk v pre with
      | none => rw [h1 hwk] at h; cases h
      | some q =>
        obtain ⟨c, hc⟩ := walk_get hwk
        rw [h2 q c hwk hc] at h
        rcases hl : opLast p c t .remove with ⟨c', o⟩
        rw [hl] at h
        cases o with
        | throw e => cases h
        | ub => cases h
        | ok r' =>
          cases h
          obtain ⟨m, d, rfl, hd, rfl, rfl⟩ := opLast_remove hl
          rfl

theorem addOp_undoes {p : Nat} {v x : Val} (hw : v.WF) (hf : ListsFit v) (hx : x.WF) {ptr : Bytes}
    (hs : ¬ OverItem v ptr) : Undoes v (addOp p v ptr x) := by
  rcases h : pointerOp p v (.add x) ptr with ⟨v', o⟩
  simp only [addOp, h]
  cases o with
  | ub => exact .inl rfl
  | throw e =>
    obtain rfl := pointerOp_throw hw h
    exact .inr ⟨hw, nofun, fun _ => rfl⟩
  | ok r =>
    refine .inr ⟨pointerOp_add_wf hw hx h, ?_, ?_⟩
    · intro _ hf'
      simp only [List.reverse_singleton, undoAll, addOp_undo hw hf hf' hs h]
    · intro hn
      exact absurd (congrArg Out.ok (pointerOp_success hw h)) hn

theorem removeOp_undoes {p : Nat} {v : Val} (hw : v.WF) {ptr : Bytes} : Undoes v (removeOp p v ptr) := by
  rcases h : pointerOp p v .remove ptr with ⟨v', o⟩
  simp only [removeOp, h]
  cases o with
  | ub => exact .inl rfl
  | throw e =>
    obtain rfl := pointerOp_throw hw h
    exact .inr ⟨hw, nofun, fun _ => rfl⟩
  | ok r =>
    have : undoAll v' [Undo.add r.path r.value].reverse = (v, .ok ()) := by
      simp only [List.reverse_singleton, undoAll, removeOp_undo hw h]
    exact .inr ⟨pointerOp_remove_wf hw h, fun _ _ => this, fun _ => this⟩

theorem replaceOp_undoes {p : Nat} {v : Val} {x : Out Val} (hw : v.WF) (hx : ∀ y, x = .ok y → y.WF) {ptr : Bytes}
    (hs : ¬ OverItem v ptr) : Undoes v (replaceOp p v ptr x) := by
  rcases h : pointerOp p v .get ptr with ⟨v', o⟩
  obtain ⟨rfl, _, hr⟩ := pointerOp_get hw h
  simp only [replaceOp, h]
  cases o with
  | ub => exact .inl rfl
  | throw e => exact .inr ⟨hw, nofun, fun _ => rfl⟩
  | ok r =>
    refine reading_undoes hw fun y hy => ?_
    have hu := replaceOp_undo (x := y) hw hs h
    have hr := hr r rfl
    rw [setPath_existing hr] at hu ⊢
    simp only [ofWr]
    have : undoAll (storeAt v' r.path y) [Undo.add r.path r.value].reverse = (v', .ok ()) := by
      simp only [List.reverse_singleton, undoAll, hu]
    exact .inr ⟨storeAt_wf hw (hx y hy), fun _ _ => this, fun _ => this⟩

theorem moveOp_undoes {p : Nat} {v : Val} {dst : Out Bytes} (hw : v.WF) (hf : ListsFit v) {src : Bytes}
    (hs : ∀ ptr v1 r, dst = .ok ptr → pointerOp p v .remove src = (v1, .ok r) → ¬ OverItem v1 ptr) :
    Undoes v (moveOp p v src dst) := by
  rcases h : pointerOp p v .remove src with ⟨v1, o⟩
  simp only [moveOp, h]
  cases o with
  | ub => exact .inl rfl
  | throw e =>
    obtain rfl := pointerOp_throw hw h
    exact .inr ⟨hw, nofun, fun _ => rfl⟩
  | ok r =>
    have hw1 := pointerOp_remove_wf hw h
    have hf1 := pointerOp_remove_fits hw hf h
    have hu : Undoes v1 (reading v1 dst fun dst => addOp p v1 dst r.value) :=
      reading_undoes hw1 fun ptr hp =>
        addOp_undoes hw1 hf1 (pointerOp_remove_value_wf hw h) (hs ptr v1 r hp h)
    generalize hR : (reading v1 dst fun dst => addOp p v1 dst r.value) = R at hu
    have step : undoAll R.1 R.2.1.reverse = (v1, .ok ()) →
        undoAll R.1 (Undo.add r.path r.value :: R.2.1).reverse = (v, .ok ()) := by
      intro hus
      rw [List.reverse_cons, undoAll_append, hus]
      simp only [undoAll, removeOp_undo hw h]
    show Undoes v ((reading v1 dst fun dst => addOp p v1 dst r.value).1,
      Undo.add r.path r.value :: (reading v1 dst fun dst => addOp p v1 dst r.value).2.1,
      (reading v1 dst fun dst => addOp p v1 dst r.value).2.2)
    rw [hR]
    rcases hu with hu | ⟨h1, h2, h3⟩
    · exact .inl hu
    · exact .inr ⟨h1, fun a b => step (h2 a b), fun a => step (h3 a)⟩

theorem copyOp_undoes {p : Nat} {v : Val} {dst : Out Bytes} (hw : v.WF) (hf : ListsFit v) {src : Bytes}
    (hs : ∀ ptr, dst = .ok ptr → ¬ OverItem v ptr) : Undoes v (copyOp p v src dst) := by
  rcases h : pointerOp p v .get src with ⟨v', o⟩
  obtain ⟨rfl, _, hr⟩ := pointerOp_get hw h
  simp only [copyOp, h]
  cases o with
  | ub => exact .inl rfl
  | throw e => exact .inr ⟨hw, nofun, fun _ => rfl⟩
  | ok r =>
    exact reading_undoes hw fun ptr hp => addOp_undoes hw hf (getPath?_wf hw (hr r rfl)) (hs ptr hp)

theorem testOp_undoes {p : Nat} {v x : Val} (hw : v.WF) {ptr : Bytes} : Undoes v (testOp p v ptr x) := by
  rcases h : pointerOp p v (.test x) ptr with ⟨v', o⟩
  obtain rfl := pointerOp_test hw h
  simp only [testOp, h]
  cases o with
  | ub => exact .inl rfl
  | throw e => exact .inr ⟨hw, nofun, fun _ => rfl⟩
  | ok r => exact .inr ⟨hw, fun _ _ => rfl, fun _ => rfl⟩

theorem patchOp_undoes {p : Nat} {flt : UInt64 → Bytes} {v d : Val} (hw : v.WF) (hf : ListsFit v) (hd : d.WF)
    (hs : OpSafe p flt v d) : Undoes v (patchOp p flt v d) := by
  have field : ∀ {k y}, getElemC d (.key k) = .ok y → y.WF := fun h => getElem?_wf hd (getElemC_iff.mp h)
  refine reading_undoes hw fun oper ho => ?_
  split
  · exact reading_undoes hw fun ptr hp => reading_undoes hw fun x hx =>
      addOp_undoes hw hf (field hx) ((hs oper ptr ho hp).1 (.inl ‹_›))
  split
  · exact reading_undoes hw fun ptr hp => removeOp_undoes hw
  split
  · exact reading_undoes hw fun ptr hp =>
      replaceOp_undoes hw (fun y hy => field hy) ((hs oper ptr ho hp).1 (.inr (.inl ‹_›)))
  split
  · exact reading_undoes hw fun src hsrc =>
      moveOp_undoes hw hf fun ptr v1 r hp hr => (hs oper ptr ho hp).2 ‹_› src v1 r hsrc hr
  split
  · exact reading_undoes hw fun src hsrc =>
      copyOp_undoes hw hf fun ptr hp => (hs oper ptr ho hp).1 (.inr (.inr ‹_›))
  split
  · exact reading_undoes hw fun ptr hp => reading_undoes hw fun x hx => testOp_undoes hw
  · exact .inr ⟨hw, nofun, fun _ => rfl⟩

/-! ## The whole patch -/

/-- Along the patch the lists stay shorter than 2^32 and every operation is `OpSafe` where it is
carried out. -/
def SafeFrom (p : Nat) (flt : UInt64 → Bytes) (v : Val) : List Val → Prop
  | [] => ListsFit v
  | d :: ds => ListsFit v ∧ OpSafe p flt v d ∧
    ∀ v' us, patchOp p flt v d = (v', us, .ok true) → SafeFrom p flt v' ds

theorem SafeFrom.fits {p : Nat} {flt : UInt64 → Bytes} {v : Val} {ds : List Val} (h : SafeFrom p flt v ds) :
    ListsFit v := by
  cases ds with
  | nil => exact h
  | cons d ds => exact h.1

theorem patchLoop_undoes {p : Nat} {flt : UInt64 → Bytes} {v0 : Val} (ds : List Val) :
    ∀ {v : Val} {us : List Undo}, v.WF → (∀ d ∈ ds, d.WF) → SafeFrom p flt v ds →
      undoAll v us = (v0, .ok ()) → ∀ {v' us' o}, patchLoop p flt v us ds = (v', us', o) →
      o = .ok true ∨ o = .ub ∨ undoAll v' us' = (v0, .ok ()) := by
  induction ds with
  | nil =>
    intro v us _ _ _ _ v' us' o h
    cases h
    exact .inl rfl
  | cons d ds ih =>
    intro v us hw hd hs hu v' us' o h
    obtain ⟨hf, h1, h2⟩ := hs
    have hop := patchOp_undoes (p := p) (flt := flt) hw hf (hd d (by simp)) h1
    rcases he : patchOp p flt v d with ⟨v1, us1, o1⟩
    rw [he] at hop
    simp only [patchLoop, he] at h
    have cont : undoAll v1 us1.reverse = (v, .ok ()) → undoAll v1 (us1.reverse ++ us) = (v0, .ok ()) := by
      intro hx
      rw [undoAll_append, hx]
      exact hu
    rcases hop with rfl | ⟨hw1, h3, h4⟩
    · cases h; exact .inr (.inl rfl)
    · cases o1 with
      | ub => cases h; exact .inr (.inl rfl)
      | throw e =>
        cases h
        exact .inr (.inr (cont (h4 nofun)))
      | ok b =>
        cases b with
        | false =>
          cases h
          exact .inr (.inr (cont (h4 (by simp))))
        | true =>
          have hs' := h2 v1 us1 he
          exact ih hw1 (fun d' hd' => hd d' (by simp [hd'])) hs' (cont (h3 rfl hs'.fits)) h

/-- **C40.** A patch that does not succeed reports failure and leaves the document exactly as it
was.  Partial: operations that insert before or replace an element of a list are excluded (see
`patch_atomic_add_false`, `patch_atomic_replace_false`), and inserting beyond the end of a list is
undefined behaviour. -/
theorem patch_atomic_partial (p : Nat) (flt : UInt64 → Bytes) (v diff : Val) (hw : v.WF)
    (hd : ∀ d ∈ patchOps diff, d.WF) (hs : SafeFrom p flt v (patchOps diff)) :
    (patch p flt v diff).2 = .ok true ∨ (patch p flt v diff).2 = .ub ∨ patch p flt v diff = (v, .ok false) := by
  rcases he : patchLoop p flt v [] (patchOps diff) with ⟨v', us, o⟩
  have hu := patchLoop_undoes (v0 := v) (patchOps diff) hw hd hs rfl he
  simp only [patch, he]
  rcases hu with rfl | rfl | hu
  · exact .inl rfl
  · exact .inr (.inl rfl)
  · cases o with
    | ub => exact .inr (.inl rfl)
    | throw e => refine .inr (.inr ?_); simp only [rollback, hu]
    | ok b =>
      cases b with
      | true => exact .inl rfl
      | false => refine .inr (.inr ?_); simp only [rollback, hu]

/-- A sufficient condition that only looks at the patch: no target pointer ends in something that
reads as a number. -/
def NamesNoItem (flt : UInt64 → Bytes) (d : Val) : Prop :=
  ∀ ptr pre t, textField flt d kPath = .ok ptr → components ptr = some (pre ++ [t]) → isIndex t = none

theorem NamesNoItem.safe {p : Nat} {flt : UInt64 → Bytes} {v d : Val} (h : NamesNoItem flt d) : OpSafe p flt v d := by
  intro oper ptr _ hp
  have key : ∀ u, ¬ OverItem u ptr := by
    rintro u ⟨pre, t, q, xs, n, h1, _, _, h2, _⟩
    rw [h ptr pre t hp h1] at h2; cases h2
  exact ⟨fun _ => key v, fun _ _ v1 _ _ _ => key v1⟩

theorem formPointer_zero : formPointer [.index 0] = [0x2f, 0x30] := by
  simp only [formPointer, formElem, List.flatMap_cons, List.flatMap_nil, List.append_nil]
  rw [natDec_lt (by decide)]
  rfl

/-- Adding before an element of a list is not undone by a later failure: the old element is
inserted once more. -/
theorem patch_atomic_add_false :
    patch 64 (fun _ => []) (.list [.int 1]) (.list [opAdd [.index 0] (.int 2), .null]) =
      (.list [.int 1, .int 2, .int 1], .ok false) := by
  simp only [opAdd, opReplace, formPointer_zero]
  rfl

/-- Replacing an element of a list is not undone by a later failure. -/
theorem patch_atomic_replace_false :
    patch 64 (fun _ => []) (.list [.int 1]) (.list [opReplace [.index 0] (.int 2), .null]) =
      (.list [.int 1, .int 2], .ok false) := by
  simp only [opAdd, opReplace, formPointer_zero]
  rfl

/-- The hypotheses of `patch_atomic_partial` are met by a patch that adds a member to an object,
and then fails. -/
example (p : Nat) (flt : UInt64 → Bytes) :
    (Val.map [([0x61], .int 1)]).WF ∧
    SafeFrom p flt (.map [([0x61], .int 1)]) (patchOps (.list [opAdd [.key [0x62]] (.int 2), .null])) ∧
    patch p flt (.map [([0x61], .int 1)]) (.list [opAdd [.key [0x62]] (.int 2), .null]) =
      (.map [([0x61], .int 1)], .ok false) := by
  refine ⟨by simp [Val.WF, WFMap, AMap.Sorted, AMap.above], ⟨?_, ?_, ?_⟩, rfl⟩
  · refine fits_map fun k c h => ?_
    obtain ⟨_, rfl⟩ := get_one h
    exact fits_leaf rfl rfl
  · refine NamesNoItem.safe ?_
    intro ptr pre t h1 h2
    cases h1
    have h2' : some [[0x62]] = some (pre ++ [t]) := h2
    simp only [Option.some.injEq] at h2'
    rcases pre with _ | ⟨a, pre⟩
    · cases h2'; decide
    · simp at h2'
  · intro v' us h
    cases h
    refine ⟨fits_map fun k c h => ?_, ?_, nofun⟩
    · have h : AMap.get [([0x61], Val.int 1), ([0x62], Val.int 2)] k = some c := h
      simp only [AMap.get] at h
      split at h
      · cases h; exact fits_leaf rfl rfl
      · split at h
        · cases h; exact fits_leaf rfl rfl
        · cases h
    · intro oper ptr h1; cases h1

/-! ## C40: a patch that succeeds has the effect of its operations in order -/

/-- The operations of RFC 6902, with their pointers as tokens; `copy` is left out (it shares
storage, which trees cannot show). -/
inductive SpecOp where
  | add (ts : List Bytes) (x : Val)
  | remove (ts : List Bytes)
  | replace (ts : List Bytes) (x : Val)
  | move (src dst : List Bytes)
  | test (ts : List Bytes) (x : Val)

/-- Their form in a patch document. -/
def SpecOp.encode : SpecOp → Val
  | .add ts x => .map [(kOp, .str wAdd), (kPath, .str (pointerText ts)), (kValue, x)]
  | .remove ts => .map [(kOp, .str wRemove), (kPath, .str (pointerText ts))]
  | .replace ts x => .map [(kOp, .str wReplace), (kPath, .str (pointerText ts)), (kValue, x)]
  | .move src dst => .map [(kFrom, .str (pointerText src)), (kOp, .str wMove), (kPath, .str (pointerText dst))]
  | .test ts x => .map [(kOp, .str wTest), (kPath, .str (pointerText ts)), (kValue, x)]

/-- The tokens an operation uses are `Proper`. -/
def SpecOp.Proper : SpecOp → Prop
  | .add ts _ | .remove ts | .replace ts _ | .test ts _ => ∀ t ∈ ts, Ext.Proper t
  | .move src dst => (∀ t ∈ src, Ext.Proper t) ∧ ∀ t ∈ dst, Ext.Proper t

def SpecOp.WF : SpecOp → Prop
  | .add _ x | .replace _ x => x.WF
  | _ => True

/-- The effect of an operation; array elements are not removed. -/
inductive SpecStep (p : Nat) (v : Val) : SpecOp → Val → Prop
  | add {ts x v'} : Added x v ts v' → SpecStep p v (.add ts x) v'
  | remove {ts v'} : Removed v ts v' → InObject v ts → SpecStep p v (.remove ts) v'
  | replace {ts x v'} : Replaced x v ts v' → SpecStep p v (.replace ts x) v'
  | move {src dst v'} : Moved v src dst v' → SpecStep p v (.move src dst) v'
  | test {ts x w} : Reaches v ts w → veq p w x = true → SpecStep p v (.test ts x) v

inductive SpecRun (p : Nat) : Val → List SpecOp → Val → Prop
  | nil {v} : SpecRun p v [] v
  | cons {v op v1 ops v'} : SpecStep p v op v1 → SpecRun p v1 ops v' → SpecRun p v (op :: ops) v'

theorem opTokens_test {p : Nat} {v x : Val} (hw : v.WF) (ts : List Bytes) :
    (walk v ts = none → ∃ e, opTokens p v (.test x) ts = (v, .throw e)) ∧
    (∀ q w, walk v ts = some q → getPath? v q = some w →
      opTokens p v (.test x) ts = (v, .ok ⟨q, x, none, veq p w x⟩)) := by
  rcases tokens_cases ts with rfl | ⟨pre, t, rfl⟩
  · refine ⟨fun h => (by cases h), fun q w h1 h2 => ?_⟩
    cases h1; cases h2; rfl
  · obtain ⟨h1, h2⟩ := opTokens_walk p (.test x) t hw (pre := pre)
    rw [walk_append]
    cases hwp : walk v pre with
    | none => exact ⟨fun _ => ⟨_, h1 hwp⟩, fun q w h => (by cases h)⟩
    | some q' =>
      obtain ⟨c, hc⟩ := walk_get hwp
      rw [h2 q' c hwp hc]
      simp only [Option.bind_some, hc]
      have g : (walk c [t] = none → ∃ e, opLast p c t (.test x) = (c, .throw e)) ∧
          (∀ q w, walk c [t] = some q → getPath? c q = some w →
            opLast p c t (.test x) = (c, .ok ⟨q, x, none, veq p w x⟩)) := by
        cases c with
        | map m =>
          have e1 : childElem (.map m) t = some (.key t) := rfl
          have e2 : getElem? (.map m) (.key t) = AMap.get m t := rfl
          simp only [walk, e1, e2, opLast, opMap]
          cases h : AMap.get m t with
          | none => exact ⟨fun _ => ⟨_, rfl⟩, fun q w h => (by cases h)⟩
          | some c =>
            refine ⟨fun h => (by cases h), fun q w h1 h2 => ?_⟩
            cases h1
            simp only [getPath?, e2, h, Option.some.injEq] at h2
            rw [h2]
        | list xs =>
          have e1 : childElem (.list xs) t = (isIndex t).map fun n => .index (UInt32.ofNat n) := rfl
          simp only [walk, e1, opLast, opList]
          by_cases hd : t = [0x2d]
          · have : isIndex t = none := by rw [hd]; decide
            rw [if_pos hd, this]
            exact ⟨fun _ => ⟨_, rfl⟩, fun q w h => (by cases h)⟩
          · rw [if_neg hd]
            cases hi : isIndex t with
            | none => exact ⟨fun _ => ⟨_, rfl⟩, fun q w h => (by cases h)⟩
            | some n =>
              have e2 : getElem? (.list xs) (.index (UInt32.ofNat n)) = xs[n % 2 ^ 32]? := rfl
              simp only [Option.map_some, e2, opIndex]
              cases h : xs[n % 2 ^ 32]? with
              | none => exact ⟨fun _ => ⟨_, rfl⟩, fun q w h => (by cases h)⟩
              | some c =>
                refine ⟨fun h => (by cases h), fun q w h1 h2 => ?_⟩
                cases h1
                simp only [getPath?, e2, h, Option.some.injEq] at h2
                rw [h2]
        | _ => exact ⟨fun _ => ⟨_, rfl⟩, fun q w h => (by cases h)⟩
      obtain ⟨g1, g2⟩ := g
      constructor
      · intro h
        have : walk c [t] = none := by
          cases hwc : walk c [t] with
          | none => rfl
          | some q => rw [hwc] at h; cases h
        obtain ⟨e, he⟩ := g1 this
        rw [he, storeAt_same hw hc]
        exact ⟨e, rfl⟩
      · intro q w h3 h4
        cases hwc : walk c [t] with
        | none => rw [hwc] at h3; cases h3
        | some q2 =>
          rw [hwc] at h3; cases h3
          rw [getPath?_append, hc] at h4
          rw [g2 q2 w hwc h4, storeAt_same hw hc]
          rfl

theorem patchOp_add {p : Nat} {flt : UInt64 → Bytes} {v x : Val} {ts : List Bytes} :
    patchOp p flt v (SpecOp.encode (.add ts x)) = addOp p v (pointerText ts) x := rfl
theorem patchOp_remove {p : Nat} {flt : UInt64 → Bytes} {v : Val} {ts : List Bytes} :
    patchOp p flt v (SpecOp.encode (.remove ts)) = removeOp p v (pointerText ts) := rfl
theorem patchOp_replace {p : Nat} {flt : UInt64 → Bytes} {v x : Val} {ts : List Bytes} :
    patchOp p flt v (SpecOp.encode (.replace ts x)) = replaceOp p v (pointerText ts) (.ok x) := rfl
theorem patchOp_move {p : Nat} {flt : UInt64 → Bytes} {v : Val} {src dst : List Bytes} :
    patchOp p flt v (SpecOp.encode (.move src dst)) = moveOp p v (pointerText src) (.ok (pointerText dst)) := rfl
theorem patchOp_test {p : Nat} {flt : UInt64 → Bytes} {v x : Val} {ts : List Bytes} :
    patchOp p flt v (SpecOp.encode (.test ts x)) = testOp p v (pointerText ts) x := rfl

theorem patchOp_run {p : Nat} {flt : UInt64 → Bytes} {v v' : Val} {us : List Undo} (hw : v.WF) {op : SpecOp}
    (ho : op.WF) (hp : op.Proper) (h : patchOp p flt v op.encode = (v', us, .ok true)) :
    SpecStep p v op v' ∧ v'.WF := by
  cases op with
  | add ts x =>
    rw [patchOp_add] at h
    simp only [addOp] at h
    rcases he : pointerOp p v (.add x) (pointerText ts) with ⟨v1, o⟩
    rw [he] at h
    cases o <;> try (cases h; done)
    obtain rfl := (Prod.mk.inj h).1
    refine ⟨.add ?_, pointerOp_add_wf hw ho he⟩
    rw [pointerOp_text] at he
    exact run_added hw hp he
  | remove ts =>
    rw [patchOp_remove] at h
    simp only [removeOp] at h
    rcases he : pointerOp p v .remove (pointerText ts) with ⟨v1, o⟩
    rw [he] at h
    cases o <;> try (cases h; done)
    obtain rfl := (Prod.mk.inj h).1
    have hw1 := pointerOp_remove_wf hw he
    rw [pointerOp_text] at he
    obtain ⟨h1, _, h3⟩ := run_removed hw hp he
    exact ⟨.remove h1 h3, hw1⟩
  | replace ts x =>
    rw [patchOp_replace] at h
    simp only [replaceOp, pointerOp_text] at h
    cases hwk : walk v ts with
    | none =>
      obtain ⟨e, he⟩ := (opTokens_get p hw ts).1 hwk
      rw [he] at h; cases h
    | some q =>
      obtain ⟨w, hc⟩ := walk_get hwk
      rw [(opTokens_get p hw ts).2 q w hwk hc] at h
      simp only [reading, setPath_existing hc, ofWr] at h
      cases h
      exact ⟨.replace (walk_replaced hp hwk), storeAt_wf hw ho⟩
  | move src dst =>
    rw [patchOp_move] at h
    simp only [moveOp] at h
    rcases he : pointerOp p v .remove (pointerText src) with ⟨v1, o⟩
    rw [he] at h
    cases o with
    | throw e => cases h
    | ub => cases h
    | ok r =>
      have hw1 := pointerOp_remove_wf hw he
      have hv := pointerOp_remove_value_wf hw he
      simp only [reading, addOp] at h
      rcases hb : pointerOp p v1 (.add r.value) (pointerText dst) with ⟨v2, o2⟩
      simp only [hb] at h
      cases o2 <;> try (cases h; done)
      obtain rfl := (Prod.mk.inj h).1
      refine ⟨.move ?_, pointerOp_add_wf hw1 hv hb⟩
      rw [pointerOp_text] at he hb
      obtain ⟨h1, h2, h3⟩ := run_removed hw hp.1 he
      exact ⟨_, _, h2, h3, h1, run_added hw1 hp.2 hb⟩
  | test ts x =>
    rw [patchOp_test] at h
    simp only [testOp, pointerOp_text] at h
    cases hwk : walk v ts with
    | none =>
      obtain ⟨e, he⟩ := (opTokens_test (p := p) (x := x) hw ts).1 hwk
      rw [he] at h; cases h
    | some q =>
      obtain ⟨w, hc⟩ := walk_get hwk
      rw [(opTokens_test (p := p) hw ts).2 q w hwk hc] at h
      simp only [Prod.mk.injEq, Out.ok.injEq] at h
      obtain ⟨rfl, _, h⟩ := h
      exact ⟨.test (walk_reaches hp hwk hc) h, hw⟩

theorem patchOp_step {p : Nat} {flt : UInt64 → Bytes} {v v' : Val} (hw : v.WF) (hf : ListsFit v) {op : SpecOp}
    (hp : op.Proper) (h : SpecStep p v op v') : ∃ us, patchOp p flt v op.encode = (v', us, .ok true) := by
  cases h with
  | @add ts x _ h =>
    obtain ⟨r, hr⟩ := added_run (p := p) hw hf h
    rw [patchOp_add]
    have hs := pointerOp_success (p := p) (ptr := pointerText ts) hw (by rw [pointerOp_text]; exact hr)
    simp only [addOp, pointerOp_text, hr, hs]
    exact ⟨_, rfl⟩
  | @remove ts _ h hi =>
    obtain ⟨r, hr⟩ := removed_run (p := p) hw hf hi h
    rw [patchOp_remove]
    have hs := pointerOp_remove_success (p := p) (ptr := pointerText ts) hw (by rw [pointerOp_text]; exact hr)
    simp only [removeOp, pointerOp_text, hr, hs]
    exact ⟨_, rfl⟩
  | @replace ts x _ h =>
    obtain ⟨q, hq, rfl⟩ := replaced_walk hf h
    obtain ⟨w, hc⟩ := walk_get hq
    rw [patchOp_replace]
    simp only [replaceOp, pointerOp_text, (opTokens_get p hw ts).2 q w hq hc, reading, setPath_existing hc, ofWr]
    exact ⟨_, rfl⟩
  | @move src dst _ h =>
    obtain ⟨w, v1, hr, hi, hrem, hadd⟩ := h
    obtain ⟨r, he⟩ := removed_run (p := p) hw hf hi hrem
    have he' : pointerOp p v .remove (pointerText src) = (v1, .ok r) := by rw [pointerOp_text]; exact he
    have hw1 := pointerOp_remove_wf hw he'
    have hf1 := pointerOp_remove_fits hw hf he'
    obtain ⟨_, q1, a1, b1⟩ := opTokens_remove hw he
    obtain ⟨q2, a2, b2⟩ := reaches_walk hf hr
    rw [a1] at a2; cases a2
    rw [b1] at b2; cases b2
    obtain ⟨r2, hr2⟩ := added_run (p := p) hw1 hf1 hadd
    have hs := pointerOp_success (p := p) (ptr := pointerText dst) hw1 (by rw [pointerOp_text]; exact hr2)
    rw [patchOp_move]
    simp only [moveOp, he', reading, addOp, pointerOp_text, hr2, hs]
    exact ⟨_, rfl⟩
  | @test ts x w h hv =>
    obtain ⟨q, hq, hc⟩ := reaches_walk hf h
    rw [patchOp_test]
    simp only [testOp, pointerOp_text, (opTokens_test (p := p) hw ts).2 q w hq hc, hv]
    exact ⟨_, rfl⟩

theorem patchLoop_run {p : Nat} {flt : UInt64 → Bytes} (ops : List SpecOp) :
    ∀ {v v' : Val} {us us' : List Undo}, v.WF → (∀ op ∈ ops, op.WF ∧ op.Proper) →
      patchLoop p flt v us (ops.map SpecOp.encode) = (v', us', .ok true) → SpecRun p v ops v' := by
  induction ops with
  | nil => intro v v' us us' _ _ h; cases h; exact .nil
  | cons op ops ih =>
    intro v v' us us' hw ho h
    simp only [List.map_cons, patchLoop] at h
    rcases he : patchOp p flt v op.encode with ⟨v1, us1, o⟩
    rw [he] at h
    cases o with
    | throw e => cases h
    | ub => cases h
    | ok b =>
      cases b with
      | false => cases h
      | true =>
        obtain ⟨h1, h2⟩ := patchOp_run hw (ho op (by simp)).1 (ho op (by simp)).2 he
        exact .cons h1 (ih h2 (fun o ho' => ho o (by simp [ho'])) h)

/-- **C40.** A patch that succeeds had the effect of its operations, one after the other.
Partial: without `copy`; tokens that can be misread as an index are excluded. -/
theorem patch_applies_partial (p : Nat) (flt : UInt64 → Bytes) (v v' : Val) (hw : v.WF) (ops : List SpecOp)
    (ho : ∀ op ∈ ops, op.WF ∧ op.Proper)
    (h : patch p flt v (.list (ops.map SpecOp.encode)) = (v', .ok true)) : SpecRun p v ops v' := by
  simp only [patch, patchOps] at h
  rcases he : patchLoop p flt v [] (ops.map SpecOp.encode) with ⟨v1, us, o⟩
  rw [he] at h
  have roll : ∀ v us v', rollback v us = (v', .ok true) → False := by
    intro v us v' h
    simp only [rollback] at h
    split at h <;> cases h
  cases o with
  | throw e => exact (roll _ _ _ h).elim
  | ub => cases h
  | ok b =>
    cases b with
    | false => exact (roll _ _ _ h).elim
    | true => cases h; exact patchLoop_run ops hw ho he

/-- **C40.** When every operation has an effect, the patch succeeds with it, as long as the lists
stay shorter than 2^32. -/
theorem patch_succeeds (p : Nat) (flt : UInt64 → Bytes) (v v' : Val) (hw : v.WF) (ops : List SpecOp)
    (ho : ∀ op ∈ ops, op.WF ∧ op.Proper) (h : SpecRun p v ops v')
    (hf : ∀ pre post v1, ops = pre ++ post → SpecRun p v pre v1 → ListsFit v1) :
    patch p flt v (.list (ops.map SpecOp.encode)) = (v', .ok true) := by
  have key : ∀ us, ∃ us', patchLoop p flt v us (ops.map SpecOp.encode) = (v', us', .ok true) := by
    induction h with
    | nil => exact fun us => ⟨us, rfl⟩
    | @cons v op v1 ops v' hs _ ih =>
      intro us
      have hfv : ListsFit v := hf [] (op :: ops) v rfl .nil
      obtain ⟨us1, h1⟩ := patchOp_step (flt := flt) hw hfv (ho op (by simp)).2 hs
      have hw1 := (patchOp_run hw (ho op (by simp)).1 (ho op (by simp)).2 h1).2
      obtain ⟨us', h'⟩ := ih hw1 (fun o h => ho o (by simp [h]))
        (fun pre post v2 e hr => hf (op :: pre) post v2 (by rw [e]; rfl) (.cons hs hr)) (us1.reverse ++ us)
      exact ⟨us', by simp only [List.map_cons, patchLoop, h1, h']⟩
  obtain ⟨us', h'⟩ := key []
  simp only [patch, patchOps, h']

/-- **C40.** A patch that is one operation by itself, not in a list, has the effect of that operation. -/
theorem patch_one (p : Nat) (flt : UInt64 → Bytes) (v v' : Val) (hw : v.WF) (hf : ListsFit v) (hf' : ListsFit v') (op : SpecOp)
    (ho : op.WF ∧ op.Proper) (h : SpecStep p v op v') : patch p flt v op.encode = (v', .ok true) := by
  have h1 : patch p flt v (.list ([op].map SpecOp.encode)) = (v', .ok true) := by
    refine patch_succeeds p flt v v' hw [op] (fun o h => by cases List.mem_singleton.1 h; exact ho) (.cons h .nil) fun pre post v1 e hr => ?_
    cases hr with
    | nil => exact hf
    | cons h2 hr =>
      obtain ⟨rfl, e'⟩ := List.cons.inj e
      obtain ⟨rfl, -⟩ := List.append_eq_nil_iff.1 e'.symm
      obtain ⟨us, h4⟩ := patchOp_step (flt := flt) hw hf ho.2 h
      obtain ⟨us', h5⟩ := patchOp_step (flt := flt) hw hf ho.2 h2
      rw [h4] at h5
      cases hr
      cases h5
      exact hf'
  rw [← h1]
  cases op <;> rfl

/-- An `add` by itself. -/
example (p : Nat) (flt : UInt64 → Bytes) : patch p flt (.map [([0x61], .int 1)]) (opAdd [.key [0x62]] (.int 2)) =
    (.map [([0x61], .int 1), ([0x62], .int 2)], .ok true) := rfl

end Verif.Ext
