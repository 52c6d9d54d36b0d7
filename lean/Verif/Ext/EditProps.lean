import Verif.Ext.PointerProps
/-!
# C39: editing through JSON pointers
-/

namespace Verif.Ext
open Verif

/-! ## Storing at a path -/

theorem getPath?_storeAt {v w : Val} {q : VPath} (h : getPath? v q = some w) (x : Val) :
    getPath? (storeAt v q x) q = some x := by
  induction q generalizing v with
  | nil => rfl
  | cons e q ih =>
    rw [getPath?_cons] at h
    cases hc : getElem? v e with
    | none => rw [hc] at h; cases h
    | some c =>
      rw [hc] at h
      rw [getPath?_cons]
      simp only [storeAt, hc, getElem?_putElem_self hc]
      exact ih h

theorem storeAt_storeAt {v w : Val} {q : VPath} (h : getPath? v q = some w) (x y : Val) :
    storeAt (storeAt v q x) q y = storeAt v q y := by
  induction q generalizing v with
  | nil => rfl
  | cons e q ih =>
    rw [getPath?_cons] at h
    cases hc : getElem? v e with
    | none => rw [hc] at h; cases h
    | some c =>
      rw [hc] at h
      simp only [storeAt, hc, getElem?_putElem_self hc, putElem_putElem]
      rw [ih h]

theorem setPath_existing {v w : Val} {q : VPath} (h : getPath? v q = some w) (x : Val) :
    setPath v q x = (storeAt v q x, none) := by
  have := setPath_append [] x h
  rw [List.append_nil] at this
  exact this

theorem set_erase {m : List (Bytes × Val)} (hs : AMap.Sorted m) {k : Bytes} {c : Val} (h : AMap.get m k = some c) :
    AMap.set (AMap.erase m k) k c = m := by
  refine AMap.ext (AMap.sorted_set (AMap.sorted_erase hs k) k c) hs fun k' => ?_
  by_cases hk : k' = k
  · subst hk; rw [AMap.get_set_self, h]
  · rw [AMap.get_set_other _ _ _ _ hk, AMap.get_erase_other _ _ _ hk]

/-! ## The last component -/

theorem opLast_throw {p : Nat} {c c' : Val} {t : Bytes} {op : POp} {e : Err}
    (h : opLast p c t op = (c', .throw e)) : c' = c := by
  cases c with
  | map m =>
    cases op with
    | add x => cases h
    | remove | test x | get =>
      simp only [opLast, opMap] at h
      split at h <;> cases h
      rfl
  | list xs =>
    simp only [opLast, opList] at h
    split at h
    · cases op <;> cases h <;> rfl
    · split at h
      · cases h; rfl
      · cases op with
        | add x =>
          simp only [opIndex] at h
          split at h <;> cases h
        | remove => cases h; rfl
        | test x | get =>
          simp only [opIndex] at h
          split at h <;> cases h
          rfl
  | _ => cases h; rfl

theorem opLast_ub {p : Nat} {c c' : Val} {t : Bytes} {op : POp} (h : opLast p c t op = (c', .ub)) :
    ∃ xs n x, c = .list xs ∧ isIndex t = some n ∧ xs.length < n ∧ op = .add x := by
  cases c with
  | map m =>
    cases op with
    | add x => cases h
    | remove | test x | get =>
      simp only [opLast, opMap] at h
      split at h <;> cases h
  | list xs =>
    simp only [opLast, opList] at h
    split at h
    · cases op <;> cases h
    · split at h
      · cases h
      · rename_i n hn
        cases op with
        | add x =>
          simp only [opIndex] at h
          split at h
          · cases h
          · exact ⟨xs, n, x, rfl, hn, by omega, rfl⟩
        | remove => cases h
        | test x | get =>
          simp only [opIndex] at h
          split at h <;> cases h
  | _ => cases h

theorem opLast_add {p : Nat} {c c' : Val} {t : Bytes} {x : Val} {r : PRes} (ht : Proper t)
    (h : opLast p c t (.add x) = (c', .ok r)) : AddAt x c t c' := by
  cases c with
  | map m => cases h; exact .member
  | list xs =>
    simp only [opLast, opList] at h
    split at h
    · rename_i hd; cases h; rw [hd]; exact .append
    · split at h
      · cases h
      · rename_i n hn
        simp only [opIndex] at h
        split at h
        · rename_i hl
          cases h
          obtain ⟨_, rfl⟩ := ht.isIndex hn
          exact .insert hl
        · cases h
  | _ => cases h

theorem AddAt.run {p : Nat} {c c' : Val} {t : Bytes} {x : Val} (hf : ListsFit c) (h : AddAt x c t c') :
    ∃ r, opLast p c t (.add x) = (c', .ok r) := by
  cases h with
  | member => exact ⟨_, rfl⟩
  | @insert xs n hn =>
    have h1 := hf.here xs rfl
    simp only [opLast, opList, if_neg (natDec_ne_dash _), isIndex_natDec (show n < 2 ^ 64 by omega), opIndex, if_pos hn]
    exact ⟨_, rfl⟩
  | append =>
    simp only [opLast, opList, if_true]
    exact ⟨_, rfl⟩

theorem opLast_remove {p : Nat} {c c' : Val} {t : Bytes} {r : PRes} (h : opLast p c t .remove = (c', .ok r)) :
    ∃ m d, c = .map m ∧ AMap.get m t = some d ∧ c' = .map (AMap.erase m t) ∧ r = ⟨[.key t], d, none, true⟩ := by
  cases c with
  | map m =>
    simp only [opLast, opMap] at h
    split at h
    · rename_i d hd; cases h; exact ⟨m, d, rfl, hd, rfl, rfl⟩
    · cases h
  | list xs =>
    simp only [opLast, opList] at h
    split at h
    · cases h
    · split at h <;> cases h
  | _ => cases h

/-! ## The whole operation -/

theorem tokens_cases (ts : List Bytes) : ts = [] ∨ ∃ pre t, ts = pre ++ [t] := by
  rcases List.eq_nil_or_concat ts with h | ⟨pre, t, h⟩
  · exact .inl h
  · exact .inr ⟨pre, t, by rw [h, List.concat_eq_append]⟩

theorem opTokens_throw {p : Nat} {v v' : Val} (hw : v.WF) {ts : List Bytes} {op : POp} {e : Err}
    (h : opTokens p v op ts = (v', .throw e)) : v' = v := by
  rcases tokens_cases ts with rfl | ⟨pre, t, rfl⟩
  · cases op <;> cases h
  · obtain ⟨h1, h2⟩ := opTokens_walk p op t hw (pre := pre)
    cases hwk : walk v pre with
    | none => rw [h1 hwk] at h; cases h; rfl
    | some q =>
      obtain ⟨c, hc⟩ := walk_get hwk
      rw [h2 q c hwk hc] at h
      rcases hl : opLast p c t op with ⟨c', o⟩
      rw [hl] at h
      cases o with
      | throw e =>
        cases h
        rw [opLast_throw hl]
        exact storeAt_same hw hc
      | ok r => cases h
      | ub => cases h

/-- What `remove` does when it succeeds, and that putting the value back undoes it. -/
theorem opTokens_remove {p : Nat} {v v' : Val} (hw : v.WF) {ts : List Bytes} {r : PRes}
    (h : opTokens p v .remove ts = (v', .ok r)) :
    (setPath v' r.path r.value).1 = v ∧ (∃ q, walk v ts = some q ∧ getPath? v q = some r.value) := by
  rcases tokens_cases ts with rfl | ⟨pre, t, rfl⟩
  · cases h; exact ⟨rfl, [], rfl, rfl⟩
  · obtain ⟨h1, h2⟩ := opTokens_walk p .remove t hw (pre := pre)
    cases hwk : walk v pre with
    | none => rw [h1 hwk] at h; cases h
    | some q =>
      obtain ⟨c, hc⟩ := walk_get hwk
      rw [h2 q c hwk hc] at h
      rcases hl : opLast p c t .remove with ⟨c', o⟩
      rw [hl] at h
      cases o with
      | throw e => cases h
      | ub => cases h
      | ok r' =>
        cases h
        obtain ⟨m, d, rfl, hd, rfl, rfl⟩ := opLast_remove hl
        have hs : AMap.Sorted m := by
          have := getPath?_wf hw hc
          simp only [Val.WF] at this
          exact this.1
        have hn : AMap.get (AMap.erase m t) t = none := AMap.get_erase_self hs t
        have e1 : setPath (.map (AMap.erase m t)) [.key t] d = (.map m, none) := by
          have e2 : getElem? (.map (AMap.erase m t)) (.key t) = none := hn
          simp only [setPath, e2, if_true]
          simp only [setElem, setKey, set_erase hs hd]
        constructor
        · simp only [addPath]
          rw [setPath_append _ _ (getPath?_storeAt hc _), e1, storeAt_storeAt hc, storeAt_same hw hc]
        · refine ⟨q ++ [.key t], ?_, ?_⟩
          · rw [walk_append, hwk]
            simp only [Option.bind_some, hc]
            rw [walk_member hd (ts := []) rfl]
            rfl
          · rw [getPath?_append, hc]
            have e2 : getElem? (.map m) (.key t) = some d := hd
            simp only [Option.bind_some, getPath?, e2]
            rfl

theorem pointerOp_throw {p : Nat} {v v' : Val} (hw : v.WF) {ptr : Bytes} {op : POp} {e : Err}
    (h : pointerOp p v op ptr = (v', .throw e)) : v' = v := by
  unfold pointerOp at h
  split at h
  · cases h; rfl
  · exact opTokens_throw hw h

theorem pointerOp_get {p : Nat} {v v' : Val} (hw : v.WF) {ptr : Bytes} {o : Out PRes}
    (h : pointerOp p v .get ptr = (v', o)) :
    v' = v ∧ o ≠ .ub ∧ ∀ r, o = .ok r → getPath? v r.path = some r.value := by
  unfold pointerOp at h
  split at h
  · cases h; exact ⟨rfl, nofun, nofun⟩
  · rename_i ts _
    obtain ⟨h1, h2⟩ := opTokens_get p hw ts
    cases hwk : walk v ts with
    | none =>
      obtain ⟨e, he⟩ := h1 hwk
      rw [he] at h; cases h; exact ⟨rfl, nofun, nofun⟩
    | some q =>
      obtain ⟨c, hc⟩ := walk_get hwk
      rw [h2 q c hwk hc] at h
      cases h
      refine ⟨rfl, nofun, ?_⟩
      rintro r ⟨⟩
      exact hc

theorem pointerOp_remove {p : Nat} {v v' : Val} (hw : v.WF) {ptr : Bytes} {r : PRes}
    (h : pointerOp p v .remove ptr = (v', .ok r)) : (setPath v' r.path r.value).1 = v := by
  unfold pointerOp at h
  split at h
  · cases h
  · exact (opTokens_remove hw h).1

theorem opTokens_remove_ne_ub {p : Nat} {v v' : Val} (hw : v.WF) {ts : List Bytes}
    (h : opTokens p v .remove ts = (v', .ub)) : False := by
  rcases tokens_cases ts with rfl | ⟨pre, t, rfl⟩
  · cases h
  · obtain ⟨h1, h2⟩ := opTokens_walk p .remove t hw (pre := pre)
    cases hwk : walk v pre with
    | none => rw [h1 hwk] at h; cases h
    | some q =>
      obtain ⟨c, hc⟩ := walk_get hwk
      rw [h2 q c hwk hc] at h
      rcases hl : opLast p c t .remove with ⟨c', o⟩
      rw [hl] at h
      cases o with
      | throw e => cases h
      | ub => obtain ⟨_, _, x, _, _, _, hx⟩ := opLast_ub hl; cases hx
      | ok r' => cases h

theorem storeAt_wf {v x : Val} {q : VPath} (hv : v.WF) (hx : x.WF) : (storeAt v q x).WF := by
  induction q generalizing v with
  | nil => exact hx
  | cons e q ih =>
    simp only [storeAt]
    split
    · rename_i c hc; exact putElem_wf hv (ih (getElem?_wf hv hc))
    · exact hv

theorem erase_wf {m : List (Bytes × Val)} (h : (Val.map m).WF) (k : Bytes) : (Val.map (AMap.erase m k)).WF := by
  simp only [Val.WF, WFMap_iff] at h ⊢
  exact ⟨AMap.sorted_erase h.1 k, fun p hp => h.2 p (AMap.mem_erase hp)⟩

theorem pointerOp_remove_wf {p : Nat} {v v' : Val} (hw : v.WF) {ptr : Bytes} {r : PRes}
    (h : pointerOp p v .remove ptr = (v', .ok r)) : v'.WF := by
  unfold pointerOp at h
  split at h
  · cases h
  · rename_i ts _
    rcases tokens_cases ts with rfl | ⟨pre, t, rfl⟩
    · cases h; simp [Val.WF]
    · obtain ⟨h1, h2⟩ := opTokens_walk p .remove t hw (pre := pre)
      cases hwk : walk v pre with
      | none => rw [h1 hwk] at h; cases h
      | some q =>
        obtain ⟨c, hc⟩ := walk_get hwk
        rw [h2 q c hwk hc] at h
        rcases hl : opLast p c t .remove with ⟨c', o⟩
        rw [hl] at h
        cases o with
        | throw e => cases h
        | ub => cases h
        | ok r' =>
          cases h
          obtain ⟨m, d, rfl, hd, rfl, rfl⟩ := opLast_remove hl
          exact storeAt_wf hw (erase_wf (getPath?_wf hw hc) t)

/-! ## C39: failing changes nothing -/

/-- **C39.** When an operation throws, the document is what it was before. -/
theorem edit_failed_unchanged (p : Nat) (v : Val) (hw : v.WF) (a b : Bytes) (x v' : Val) (e : Err) :
    (pointerAdd p v a x = (v', .throw e) → v' = v) ∧
    (pointerRemove p v a = (v', .throw e) → v' = v) ∧
    (pointerReplace p v a x = (v', .throw e) → v' = v) ∧
    (pointerMove p v a b = (v', .throw e) → v' = v) ∧
    (pointerCopy p v a b = (v', .throw e) → v' = v) := by
  have key : ∀ {u u' : Val} {op : POp} {s : Bytes} {o : Out PRes}, u.WF → pointerOp p u op s = (u', o) →
      ∀ {e : Err}, wrap ((fun _ => ()) <$> o) = .throw e → u' = u := by
    intro u u' op s o hu h e he
    cases o with
    | throw e' => exact pointerOp_throw hu h
    | ok r => cases he
    | ub => cases he
  refine ⟨?_, ?_, ?_, ?_, ?_⟩
  · intro h
    rcases ho : pointerOp p v (.add x) a with ⟨u, o⟩
    simp only [pointerAdd, ho, Prod.mk.injEq] at h
    rw [← h.1]
    exact key hw ho h.2
  · intro h
    rcases ho : pointerOp p v .remove a with ⟨u, o⟩
    simp only [pointerRemove, ho, Prod.mk.injEq] at h
    rw [← h.1]
    exact key hw ho h.2
  · intro h
    rcases ho : pointerOp p v .get a with ⟨u, o⟩
    obtain ⟨rfl, _, hr⟩ := pointerOp_get hw ho
    simp only [pointerReplace, ho] at h
    cases o with
    | throw e' => cases h; rfl
    | ub => cases h
    | ok r =>
      simp only [setPath_existing (hr r rfl), ofWr] at h
      cases h
  · intro h
    rcases ho : pointerOp p v .remove a with ⟨u, o⟩
    simp only [pointerMove, ho] at h
    cases o with
    | throw e' => cases h; exact pointerOp_throw hw ho
    | ub => cases h
    | ok r =>
      rcases hb : pointerOp p u (.add r.value) b with ⟨u2, o2⟩
      simp only [hb] at h
      cases o2 with
      | ok _ => cases h
      | ub => cases h
      | throw e' =>
        cases h
        have hu : u.WF := pointerOp_remove_wf hw ho
        rw [pointerOp_throw hu hb]
        exact pointerOp_remove hw ho
  · intro h
    rcases ho : pointerOp p v .get a with ⟨u, o⟩
    obtain ⟨rfl, _, hr⟩ := pointerOp_get hw ho
    simp only [pointerCopy, ho] at h
    cases o with
    | throw e' => cases h; rfl
    | ub => cases h
    | ok r =>
      rcases hb : pointerOp p u (.add (deepCopy r.value)) b with ⟨u2, o2⟩
      simp only [hb, Prod.mk.injEq] at h
      rw [← h.1]
      exact key hw hb h.2

example (p : Nat) : ∃ v', pointerMove p sample (pointerText [[0x61, 0x2f, 0x62]])
    (pointerText [[0x61, 0x2f, 0x62], [0x6d, 0x7e, 0x6e], [0x78]]) = (v', .throw .runtime) := ⟨_, rfl⟩

/-! ## C39: the effect -/

theorem added_run {p : Nat} {v v' x : Val} (hw : v.WF) (hf : ListsFit v) {ts : List Bytes}
    (h : Added x v ts v') : ∃ r, opTokens p v (.add x) ts = (v', .ok r) := by
  rcases h with ⟨rfl, rfl⟩ | h
  · exact ⟨_, rfl⟩
  · obtain ⟨pre, t, q, c, c', rfl, h1, h2, h3, rfl⟩ := below_walk hf h
    rw [(opTokens_walk p (.add x) t hw).2 q c h1 h2]
    have hfc : ListsFit c := fun q' xs hq => hf (q ++ q') xs (by rw [getPath?_append, h2]; exact hq)
    obtain ⟨r, hr⟩ := h3.run (p := p) hfc
    rw [hr]
    exact ⟨_, rfl⟩

theorem run_added {p : Nat} {v v' x : Val} (hw : v.WF) {ts : List Bytes} {r : PRes} (hp : ∀ t ∈ ts, Proper t)
    (h : opTokens p v (.add x) ts = (v', .ok r)) : Added x v ts v' := by
  rcases tokens_cases ts with rfl | ⟨pre, t, rfl⟩
  · cases h; exact .inl ⟨rfl, rfl⟩
  · obtain ⟨h1, h2⟩ := opTokens_walk p (.add x) t hw (pre := pre)
    cases hwk : walk v pre with
    | none => rw [h1 hwk] at h; cases h
    | some q =>
      obtain ⟨c, hc⟩ := walk_get hwk
      rw [h2 q c hwk hc] at h
      rcases hl : opLast p c t (.add x) with ⟨c', o⟩
      rw [hl] at h
      cases o with
      | throw e => cases h
      | ub => cases h
      | ok r' =>
        cases h
        exact .inr (walk_below (fun t ht => hp t (by simp [ht])) hwk hc (opLast_add (hp t (by simp)) hl))

/-- The tokens name a place beyond the end of a list. -/
def BeyondEnd (v : Val) (ts : List Bytes) : Prop :=
  ∃ pre n xs, ts = pre ++ [natDec n] ∧ Reaches v pre (.list xs) ∧ xs.length < n

theorem run_add_ub {p : Nat} {v v' x : Val} (hw : v.WF) {ts : List Bytes} (hp : ∀ t ∈ ts, Proper t)
    (h : opTokens p v (.add x) ts = (v', .ub)) : BeyondEnd v ts := by
  rcases tokens_cases ts with rfl | ⟨pre, t, rfl⟩
  · cases h
  · obtain ⟨h1, h2⟩ := opTokens_walk p (.add x) t hw (pre := pre)
    cases hwk : walk v pre with
    | none => rw [h1 hwk] at h; cases h
    | some q =>
      obtain ⟨c, hc⟩ := walk_get hwk
      rw [h2 q c hwk hc] at h
      rcases hl : opLast p c t (.add x) with ⟨c', o⟩
      rw [hl] at h
      cases o with
      | throw e => cases h
      | ok r => cases h
      | ub =>
        obtain ⟨xs, n, _, rfl, hn, hlt, _⟩ := opLast_ub hl
        obtain ⟨_, rfl⟩ := (hp t (by simp)).isIndex hn
        exact ⟨pre, n, xs, rfl, walk_reaches (fun t ht => hp t (by simp [ht])) hwk hc, hlt⟩

/-- The three ways an edit can end: the effect `Eff`; an exception, the effect being impossible,
and nothing changed; undefined behaviour for an index beyond the end of a list. -/
def EndsAs (Eff : Val → Prop) (v : Val) (dst : List Bytes) (res : Val × Out Unit) : Prop :=
  (∃ v', Eff v' ∧ res = (v', .ok ())) ∨
  ((∀ v', ¬ Eff v') ∧ res = (v, .throw .runtime)) ∨
  (BeyondEnd v dst ∧ res.2 = .ub)

/-- **C39.** `add` has the effect of RFC 6902, throws without changing anything when there is no
such effect, or inserts beyond the end of a list.  Partial: tokens that can be misread as an index
are excluded, and beyond the end the code has undefined behaviour instead of throwing. -/
theorem add_exact_partial (p : Nat) (v : Val) (hw : v.WF) (hf : ListsFit v) (x : Val) (ts : List Bytes)
    (hp : ∀ t ∈ ts, Proper t) : EndsAs (Added x v ts) v ts (pointerAdd p v (pointerText ts) x) := by
  rcases ho : opTokens p v (.add x) ts with ⟨v', o⟩
  simp only [pointerAdd, pointerOp_text, ho]
  cases o with
  | ok r => exact .inl ⟨v', run_added hw hp ho, rfl⟩
  | ub => exact .inr (.inr ⟨run_add_ub hw hp ho, rfl⟩)
  | throw e =>
    refine .inr (.inl ⟨fun v'' h => ?_, ?_⟩)
    · obtain ⟨r, hr⟩ := added_run (p := p) hw hf h
      rw [hr] at ho; cases ho
    · rw [opTokens_throw hw ho]; rfl

/-- The effect, when there is one, happens: also for tokens that are not `Proper`. -/
theorem add_succeeds (p : Nat) (v : Val) (hw : v.WF) (hf : ListsFit v) (x : Val) (ts : List Bytes) (v' : Val)
    (h : Added x v ts v') : pointerAdd p v (pointerText ts) x = (v', .ok ()) := by
  obtain ⟨r, hr⟩ := added_run (p := p) hw hf h
  simp only [pointerAdd, pointerOp_text, hr]
  rfl

example (p : Nat) : pointerAdd p sample (pointerText [[0x61, 0x2f, 0x62], [0x6d, 0x7e, 0x6e], natDec 1]) (.bool true) =
    (.map [([0x61, 0x2f, 0x62], .map [([0x6d, 0x7e, 0x6e], .list [.int 10, .bool true, .int 20])])], .ok ()) :=
  add_succeeds p _ sample_wf sample_fit _ _ _
    (.inr (.member rfl (.member rfl (.last (.insert (n := 1) (by decide))))))

/-- Adding beyond the end of a list is undefined behaviour; RFC 6902 requires an error. -/
theorem add_beyond_end_ub (p : Nat) (xs : List Val) (x : Val) (n : Nat) (h : xs.length < n) (hn : n < 2 ^ 64) :
    (pointerAdd p (.list xs) (pointerText [natDec n]) x).2 = .ub := by
  simp only [pointerAdd, pointerOp_text, opTokens, opLast, opList, if_neg (natDec_ne_dash _), isIndex_natDec hn, opIndex,
    if_neg (Nat.not_le_of_lt h)]
  rfl

/-! ### remove -/

/-- The parent of the place the tokens name is an object (or the place is the whole document). -/
def InObject (v : Val) (ts : List Bytes) : Prop := ts = [] ∨ ∃ pre t m, ts = pre ++ [t] ∧ Reaches v pre (.map m)

theorem run_removed {p : Nat} {v v' : Val} (hw : v.WF) {ts : List Bytes} {r : PRes} (hp : ∀ t ∈ ts, Proper t)
    (h : opTokens p v .remove ts = (v', .ok r)) : Removed v ts v' ∧ Reaches v ts r.value ∧ InObject v ts := by
  have hq := (opTokens_remove hw h).2
  obtain ⟨q, hq1, hq2⟩ := hq
  have hR := walk_reaches hp hq1 hq2
  refine ⟨?_, hR, ?_⟩
  all_goals
    rcases tokens_cases ts with rfl | ⟨pre, t, rfl⟩
    · first
      | exact .inl rfl
      | (cases h; exact .inl ⟨rfl, rfl⟩)
    · obtain ⟨h1, h2⟩ := opTokens_walk p .remove t hw (pre := pre)
      cases hwk : walk v pre with
      | none => rw [h1 hwk] at h; cases h
      | some q =>
        obtain ⟨c, hc⟩ := walk_get hwk
        rw [h2 q c hwk hc] at h
        rcases hl : opLast p c t .remove with ⟨c', o⟩
        rw [hl] at h
        cases o with
        | throw e => cases h
        | ub => cases h
        | ok r' =>
          cases h
          obtain ⟨m, d, rfl, hd, rfl, rfl⟩ := opLast_remove hl
          first
          | exact .inr (walk_below (fun t ht => hp t (by simp [ht])) hwk hc (.member hd))
          | exact .inr ⟨pre, t, m, rfl, walk_reaches (fun t ht => hp t (by simp [ht])) hwk hc⟩

theorem removed_run {p : Nat} {v v' : Val} (hw : v.WF) (hf : ListsFit v) {ts : List Bytes} (hi : InObject v ts)
    (h : Removed v ts v') : ∃ r, opTokens p v .remove ts = (v', .ok r) := by
  rcases h with ⟨rfl, rfl⟩ | h
  · exact ⟨_, rfl⟩
  · obtain ⟨pre, t, q, c, c', rfl, h1, h2, h3, rfl⟩ := below_walk hf h
    rcases hi with hi | ⟨pre', t', m, e, hr⟩
    · simp at hi
    obtain ⟨rfl, e2⟩ := List.append_inj' e rfl
    cases e2
    obtain ⟨q', h1', h2'⟩ := reaches_walk hf hr
    rw [h1] at h1'; cases h1'
    rw [h2] at h2'; cases h2'
    rw [(opTokens_walk p .remove t hw).2 q _ h1 h2]
    cases h3 with
    | member hd =>
      simp only [opLast, opMap, hd]
      exact ⟨_, rfl⟩

/-- **C39.** `remove` of a member of an object, or of the whole document, has the effect of
RFC 6902; otherwise it throws and changes nothing.  Partial: array elements cannot be removed. -/
theorem remove_exact_partial (p : Nat) (v : Val) (hw : v.WF) (hf : ListsFit v) (ts : List Bytes)
    (hp : ∀ t ∈ ts, Proper t) :
    (∃ v', Removed v ts v' ∧ InObject v ts ∧ pointerRemove p v (pointerText ts) = (v', .ok ())) ∨
    (¬ (InObject v ts ∧ ∃ v', Removed v ts v') ∧ pointerRemove p v (pointerText ts) = (v, .throw .runtime)) := by
  rcases ho : opTokens p v .remove ts with ⟨v', o⟩
  simp only [pointerRemove, pointerOp_text, ho]
  cases o with
  | ok r =>
    obtain ⟨h1, _, h3⟩ := run_removed hw hp ho
    exact .inl ⟨v', h1, h3, rfl⟩
  | ub => exact absurd ho fun h => opTokens_remove_ne_ub hw h
  | throw e =>
    refine .inr ⟨?_, ?_⟩
    · rintro ⟨hi, v'', h⟩
      obtain ⟨r, hr⟩ := removed_run (p := p) hw hf hi h
      rw [hr] at ho; cases ho
    · rw [opTokens_throw hw ho]; rfl

example : InObject sample [[0x61, 0x2f, 0x62], [0x6d, 0x7e, 0x6e]] ∧
    Removed sample [[0x61, 0x2f, 0x62], [0x6d, 0x7e, 0x6e]] (.map [([0x61, 0x2f, 0x62], .map [])]) :=
  ⟨.inr ⟨[[0x61, 0x2f, 0x62]], [0x6d, 0x7e, 0x6e], _, rfl, .member rfl .here⟩,
    .inr (.member rfl (.last (.member rfl)))⟩

/-- Removing an element of a list always fails, although RFC 6902 defines it. -/
theorem remove_item_false (p : Nat) (xs : List Val) (n : Nat) (h : n < xs.length) (hn : n < 2 ^ 64) :
    pointerRemove p (.list xs) (pointerText [natDec n]) = (.list xs, .throw .runtime) ∧
      Removed (.list xs) [natDec n] (.list (xs.eraseIdx n)) := by
  constructor
  · simp only [pointerRemove, pointerOp_text, opTokens, opLast, opList, if_neg (natDec_ne_dash _), isIndex_natDec hn, opIndex]
    rfl
  · exact .inr (.last (.item h))

/-! ### replace -/

theorem childElem_replace {c d : Val} {t : Bytes} {e : PathElem} (ht : Proper t) (h : childElem c t = some e)
    (hd : getElem? c e = some d) (x : Val) : ReplaceAt x c t (putElem c e x) := by
  cases c with
  | map m => cases h; exact .member hd
  | list xs =>
    obtain ⟨n, hn, rfl, rfl⟩ := childElem_list ht h
    rw [putElem_ofNat hn]
    rw [getElem?_ofNat hn] at hd
    exact .item (getElem?_lt hd)
  | _ => cases h

theorem ReplaceAt.child {c c' x : Val} {t : Bytes} (hf : ListsFit c) (h : ReplaceAt x c t c') :
    ∃ e d, childElem c t = some e ∧ getElem? c e = some d ∧ c' = putElem c e x := by
  cases h with
  | member h => exact ⟨.key _, _, rfl, h, rfl⟩
  | @item xs n h =>
    have h1 := hf.here xs rfl
    have hn : n < 2 ^ 32 := by omega
    refine ⟨.index (UInt32.ofNat n), xs[n], ?_, ?_, (putElem_ofNat hn x).symm⟩
    · simp only [childElem, isIndex_natDec (show n < 2 ^ 64 by omega), Option.map_some]
    · rw [getElem?_ofNat hn]; exact List.getElem?_eq_getElem h

theorem replace_run {p : Nat} {v : Val} (hw : v.WF) {ts : List Bytes} {q : VPath} (x : Val)
    (h : walk v ts = some q) : pointerReplace p v (pointerText ts) x = (storeAt v q x, .ok ()) := by
  obtain ⟨w, hc⟩ := walk_get h
  simp only [pointerReplace, pointerOp_text, (opTokens_get p hw ts).2 q w h hc, setPath_existing hc]
  rfl

theorem walk_replaced {v x : Val} {ts : List Bytes} {q : VPath} (hp : ∀ t ∈ ts, Proper t)
    (h : walk v ts = some q) : Replaced x v ts (storeAt v q x) := by
  rcases tokens_cases ts with rfl | ⟨pre, t, rfl⟩
  · cases h; exact .inl ⟨rfl, rfl⟩
  · rw [walk_append] at h
    cases hwk : walk v pre with
    | none => rw [hwk] at h; cases h
    | some q' =>
      obtain ⟨c, hc⟩ := walk_get hwk
      rw [hwk, Option.bind_some, hc, Option.bind_some] at h
      simp only [walk] at h
      cases he : childElem c t with
      | none => rw [he] at h; cases h
      | some e =>
        rw [he] at h
        dsimp only at h
        cases hd : getElem? c e with
        | none => rw [hd] at h; cases h
        | some d =>
          rw [hd] at h
          cases h
          rw [storeAt_append _ _ _ _ _ hc]
          simp only [storeAt, hd]
          exact .inr (walk_below (fun t ht => hp t (by simp [ht])) hwk hc (childElem_replace (hp t (by simp)) he hd x))

theorem replaced_walk {v v' x : Val} {ts : List Bytes} (hf : ListsFit v) (h : Replaced x v ts v') :
    ∃ q, walk v ts = some q ∧ v' = storeAt v q x := by
  rcases h with ⟨rfl, rfl⟩ | h
  · exact ⟨[], rfl, rfl⟩
  · obtain ⟨pre, t, q, c, c', rfl, h1, h2, h3, rfl⟩ := below_walk hf h
    have hfc : ListsFit c := fun q' xs hq => hf (q ++ q') xs (by rw [getPath?_append, h2]; exact hq)
    obtain ⟨e, d, he, hd, rfl⟩ := h3.child hfc
    refine ⟨q ++ [e], ?_, ?_⟩
    · rw [walk_append, h1]
      simp only [Option.bind_some, h2, walk, he, hd, Option.map_some]
    · rw [storeAt_append _ _ _ _ _ h2]
      simp only [storeAt, hd]

/-- **C39.** `replace` has the effect of RFC 6902, or throws without changing anything when the
place does not exist.  Partial: tokens that can be misread as an index are excluded. -/
theorem replace_exact_partial (p : Nat) (v : Val) (hw : v.WF) (hf : ListsFit v) (x : Val) (ts : List Bytes)
    (hp : ∀ t ∈ ts, Proper t) :
    (∃ v', Replaced x v ts v' ∧ pointerReplace p v (pointerText ts) x = (v', .ok ())) ∨
    ((∀ v', ¬ Replaced x v ts v') ∧ pointerReplace p v (pointerText ts) x = (v, .throw .runtime)) := by
  cases h : walk v ts with
  | some q => exact .inl ⟨_, walk_replaced hp h, replace_run hw x h⟩
  | none =>
    refine .inr ⟨fun v' hv' => ?_, ?_⟩
    · obtain ⟨q, hq, _⟩ := replaced_walk hf hv'
      rw [h] at hq; cases hq
    · obtain ⟨e, he⟩ := (opTokens_get p hw ts).1 h
      simp only [pointerReplace, pointerOp_text, he]

theorem replace_succeeds (p : Nat) (v : Val) (hw : v.WF) (hf : ListsFit v) (x : Val) (ts : List Bytes) (v' : Val)
    (h : Replaced x v ts v') : pointerReplace p v (pointerText ts) x = (v', .ok ()) := by
  obtain ⟨q, hq, rfl⟩ := replaced_walk hf h
  exact replace_run hw x hq

example (p : Nat) : pointerReplace p sample (pointerText [[0x61, 0x2f, 0x62], [0x6d, 0x7e, 0x6e], natDec 1]) (.bool true) =
    (.map [([0x61, 0x2f, 0x62], .map [([0x6d, 0x7e, 0x6e], .list [.int 10, .bool true])])], .ok ()) :=
  replace_succeeds p _ sample_wf sample_fit _ _ _
    (.inr (.member rfl (.member rfl (.last (.item (n := 1) (by decide))))))

/-! ### move and copy -/

theorem removed_fit {v v' : Val} {ts : List Bytes} (hw : v.WF) (hf : ListsFit v) (hi : InObject v ts)
    (h : Removed v ts v') : ListsFit v' := by
  rcases h with ⟨rfl, rfl⟩ | h
  · exact fits_leaf rfl rfl
  · have : ∀ {v ts v'}, Below RemoveAt v ts v' → v.WF → ListsFit v → ListsFit v' := by
      clear h hi hf hw
      intro v ts v' h
      induction h with
      | @last _ t _ h =>
        intro hw hf
        cases h with
        | @member m _ c h =>
          refine fits_map fun k d hd => ?_
          have hs : AMap.Sorted m := by simp only [Val.WF] at hw; exact hw.1
          by_cases hk : k = t
          · subst hk; rw [AMap.get_erase_self hs] at hd; cases hd
          · rw [AMap.get_erase_other _ _ _ hk] at hd
            exact hf.child (e := .key k) hd
        | @item xs n h =>
          refine fits_list ?_ fun c hc => ?_
          · have := hf.here xs rfl
            rw [List.length_eraseIdx]; split <;> omega
          · obtain ⟨i, hi⟩ := List.getElem?_of_mem (List.mem_of_mem_eraseIdx hc)
            have hil := item_lt hf hi
            exact hf.child (e := .index (UInt32.ofNat i)) (by rw [getElem?_ofNat hil]; exact hi)
      | @member m t c ts c' h _ ih =>
        intro hw hf
        refine fits_map fun k d hd => ?_
        by_cases hk : k = t
        · subst hk; rw [AMap.get_set_self] at hd; cases hd
          exact ih (getElem?_wf (e := .key k) hw h) (hf.child (e := .key k) h)
        · rw [AMap.get_set_other _ _ _ _ hk] at hd
          exact hf.child (e := .key k) hd
      | @item xs n c ts c' h _ ih =>
        intro hw hf
        have hn := item_lt hf h
        have hg : getElem? (.list xs) (.index (UInt32.ofNat n)) = some c := by rw [getElem?_ofNat hn]; exact h
        refine fits_list (by rw [List.length_set]; exact hf.here xs rfl) fun d hd => ?_
        rcases List.mem_or_eq_of_mem_set hd with hd | rfl
        · obtain ⟨i, hi⟩ := List.getElem?_of_mem hd
          have hil := item_lt hf hi
          exact hf.child (e := .index (UInt32.ofNat i)) (by rw [getElem?_ofNat hil]; exact hi)
        · exact ih (getElem?_wf hw hg) (hf.child hg)
    exact this h hw hf

/-- Moving: the value at the source is removed there and added at the destination
(RFC 6902 section 4.4). -/
def Moved (v : Val) (src dst : List Bytes) (v' : Val) : Prop :=
  ∃ w v1, Reaches v src w ∧ InObject v src ∧ Removed v src v1 ∧ Added w v1 dst v'

/-- Copying: the value at the source is added at the destination (RFC 6902 section 4.5), its blobs
in one piece. -/
def Copied (v : Val) (src dst : List Bytes) (v' : Val) : Prop :=
  ∃ w, Reaches v src w ∧ Added (deepCopy w) v dst v'

/-- **C39.** `move` from a member of an object has the effect of RFC 6902, or throws and changes
nothing when there is no such effect; undefined behaviour only if, after the removal, the
destination is beyond the end of a list. -/
theorem move_exact_partial (p : Nat) (v : Val) (hw : v.WF) (hf : ListsFit v) (src dst : List Bytes)
    (hs : ∀ t ∈ src, Proper t) (hd : ∀ t ∈ dst, Proper t) :
    (∃ v', Moved v src dst v' ∧ pointerMove p v (pointerText src) (pointerText dst) = (v', .ok ())) ∨
    ((∀ v', ¬ Moved v src dst v') ∧ pointerMove p v (pointerText src) (pointerText dst) = (v, .throw .runtime)) ∨
    (∃ v1, Removed v src v1 ∧ BeyondEnd v1 dst ∧ (pointerMove p v (pointerText src) (pointerText dst)).2 = .ub) := by
  rcases ho : opTokens p v .remove src with ⟨v1, o⟩
  simp only [pointerMove, pointerOp_text, ho]
  cases o with
  | ub => exact absurd ho fun h => opTokens_remove_ne_ub hw h
  | throw e =>
    refine .inr (.inl ⟨?_, ?_⟩)
    · rintro v' ⟨w, v1, _, hi, h, _⟩
      obtain ⟨r, hr⟩ := removed_run (p := p) hw hf hi h
      rw [hr] at ho; cases ho
    · rw [opTokens_throw hw ho]
  | ok r =>
    obtain ⟨h1, h2, h3⟩ := run_removed hw hs ho
    have hw1 : v1.WF := pointerOp_remove_wf (p := p) (ptr := pointerText src) hw (by rw [pointerOp_text]; exact ho)
    have hf1 : ListsFit v1 := removed_fit hw hf h3 h1
    rcases ha : opTokens p v1 (.add r.value) dst with ⟨v2, o2⟩
    simp only [ha]
    cases o2 with
    | ok r2 => exact .inl ⟨v2, ⟨r.value, v1, h2, h3, h1, run_added hw1 hd ha⟩, rfl⟩
    | ub => exact .inr (.inr ⟨v1, h1, run_add_ub hw1 hd ha, rfl⟩)
    | throw e =>
      refine .inr (.inl ⟨?_, ?_⟩)
      · rintro v' ⟨w, v1', hr, hi, h, hadd⟩
        obtain ⟨r', hr'⟩ := removed_run (p := p) hw hf hi h
        rw [hr'] at ho; cases ho
        obtain ⟨q1, a1, b1⟩ := reaches_walk hf hr
        obtain ⟨q2, a2, b2⟩ := reaches_walk hf h2
        rw [a1] at a2; cases a2
        rw [b1] at b2; cases b2
        obtain ⟨r2, hr2⟩ := added_run (p := p) hw1 hf1 hadd
        rw [hr2] at ha; cases ha
      · show ((setPath v2 r.path r.value).1, _) = _
        rw [opTokens_throw hw1 ha, (opTokens_remove hw ho).1]

/-- **C39.** `copy` has the effect of RFC 6902, or throws and changes nothing; undefined behaviour
for a destination beyond the end of a list. -/
theorem copy_exact_partial (p : Nat) (v : Val) (hw : v.WF) (hf : ListsFit v) (src dst : List Bytes)
    (hs : ∀ t ∈ src, Proper t) (hd : ∀ t ∈ dst, Proper t) :
    EndsAs (Copied v src dst) v dst (pointerCopy p v (pointerText src) (pointerText dst)) := by
  cases h : walk v src with
  | none =>
    refine .inr (.inl ⟨?_, ?_⟩)
    · rintro v' ⟨w, hr, _⟩
      obtain ⟨q, hq, _⟩ := reaches_walk hf hr
      rw [h] at hq; cases hq
    · obtain ⟨e, he⟩ := (opTokens_get p hw src).1 h
      simp only [pointerCopy, pointerOp_text, he]
  | some q =>
    obtain ⟨w, hc⟩ := walk_get h
    have hr := walk_reaches hs h hc
    simp only [pointerCopy, pointerOp_text, (opTokens_get p hw src).2 q w h hc]
    have := add_exact_partial p v hw hf (deepCopy w) dst hd
    simp only [pointerAdd, pointerOp_text] at this
    rcases this with ⟨v', h1, h2⟩ | ⟨h1, h2⟩ | h1
    · exact .inl ⟨v', ⟨w, hr, h1⟩, h2⟩
    · refine .inr (.inl ⟨?_, h2⟩)
      rintro v' ⟨w', hr', ha⟩
      obtain ⟨q', a, b⟩ := reaches_walk hf hr'
      rw [h] at a; cases a
      rw [hc] at b; cases b
      exact h1 v' ha
    · exact .inr (.inr h1)

example : Moved sample [[0x61, 0x2f, 0x62], [0x6d, 0x7e, 0x6e]] [[0x7a]]
    (.map [([0x61, 0x2f, 0x62], .map []), ([0x7a], .list [.int 10, .int 20])]) :=
  ⟨_, _, .member rfl (.member rfl .here), .inr ⟨[[0x61, 0x2f, 0x62]], _, _, rfl, .member rfl .here⟩,
    .inr (.member rfl (.last (.member rfl))), .inr (.last .member)⟩

end Verif.Ext
