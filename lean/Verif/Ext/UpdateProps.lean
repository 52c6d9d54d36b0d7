import Verif.Ext.Update
import Verif.Ext.DiffProps
/-!
# C42: recursive difference, then update
-/

namespace Verif.Ext
open Verif

/-! ## Copies -/

mutual
theorem deepCopy_idem : (v : Val) → deepCopy (deepCopy v) = deepCopy v
  | .null | .bool _ | .int _ | .uint _ | .flt _ | .str _ => rfl
  | .list xs => by simp only [deepCopy, deepCopyList_idem xs]
  | .map m => by simp only [deepCopy, deepCopyMap_idem m]
  | .blob _ => by simp [deepCopy]
theorem deepCopyList_idem : (xs : List Val) → deepCopyList (deepCopyList xs) = deepCopyList xs
  | [] => rfl
  | x :: xs => by simp only [deepCopyList, deepCopy_idem x, deepCopyList_idem xs]
theorem deepCopyMap_idem : (m : List (Bytes × Val)) → deepCopyMap (deepCopyMap m) = deepCopyMap m
  | [] => rfl
  | x :: m => by simp only [deepCopyMap, deepCopy_idem x.2, deepCopyMap_idem m]
end

theorem get_deepCopy (m : List (Bytes × Val)) (k : Bytes) :
    AMap.get (deepCopyMap m) k = (AMap.get m k).map deepCopy := by
  induction m with
  | nil => rfl
  | cons x m ih => simp only [deepCopyMap, AMap.get]; split <;> simp [ih]

theorem getElem_deepCopyList (xs : List Val) (i : Nat) : (deepCopyList xs)[i]? = (xs[i]?).map deepCopy := by
  induction xs generalizing i with
  | nil => rfl
  | cons x xs ih => cases i <;> simp [deepCopyList, ih]

theorem getElem?_deepCopy (v : Val) (e : PathElem) : getElem? (deepCopy v) e = (getElem? v e).map deepCopy := by
  cases v <;> cases e <;> first | rfl | exact get_deepCopy _ _ | exact getElem_deepCopyList _ _

theorem getPath?_deepCopy (v : Val) (q : VPath) : getPath? (deepCopy v) q = (getPath? v q).map deepCopy := by
  induction q generalizing v with
  | nil => rfl
  | cons e q ih =>
    rw [getPath?_cons, getPath?_cons, getElem?_deepCopy]
    cases getElem? v e with
    | none => rfl
    | some c => exact ih c

theorem deepCopyMap_sorted {m : List (Bytes × Val)} (h : AMap.Sorted m) : AMap.Sorted (deepCopyMap m) := by
  have above : ∀ (k : Bytes) (r : List (Bytes × Val)), AMap.above k r → AMap.above k (deepCopyMap r) := by
    intro k r
    induction r with
    | nil => exact id
    | cons y r ih =>
      intro h q hq
      simp only [deepCopyMap, List.mem_cons] at hq
      rcases hq with rfl | hq
      · exact h y (by simp)
      · exact ih (fun q hq => h q (by simp [hq])) q hq
  induction m with
  | nil => exact h
  | cons x m ih => simp only [deepCopyMap, AMap.Sorted] at h ⊢; exact ⟨above _ _ h.1, ih h.2⟩

mutual
theorem deepCopy_wf : (v : Val) → v.WF → (deepCopy v).WF
  | .null, h | .bool _, h | .int _, h | .uint _, h | .flt _, h | .str _, h => h
  | .list xs, h => by simp only [deepCopy, Val.WF] at h ⊢; exact deepCopyList_wf xs h
  | .map m, h => by simp only [deepCopy, Val.WF] at h ⊢; exact ⟨deepCopyMap_sorted h.1, deepCopyMap_wf m h.2⟩
  | .blob _, h => by simp only [deepCopy, Val.WF]
theorem deepCopyList_wf : (xs : List Val) → WFList xs → WFList (deepCopyList xs)
  | [], h => h
  | x :: xs, h => by simp only [deepCopyList, WFList] at h ⊢; exact ⟨deepCopy_wf x h.1, deepCopyList_wf xs h.2⟩
theorem deepCopyMap_wf : (m : List (Bytes × Val)) → WFMap m → WFMap (deepCopyMap m)
  | [], h => h
  | x :: m, h => by simp only [deepCopyMap, WFMap] at h ⊢; exact ⟨deepCopy_wf x.2 h.1, deepCopyMap_wf m h.2⟩
end

theorem deepCopy_ty (v : Val) : (deepCopy v).ty = v.ty := by cases v <;> rfl

/-! ## Equal values have equal parts -/

theorem eqList_get {p : Nat} {a b : List Val} (h : eqList p a b = true) (i : Nat) :
    EqOpt p a[i]? b[i]? := by
  induction a generalizing b i with
  | nil => cases b with
    | nil => simp [EqOpt]
    | cons y b => simp [eqList] at h
  | cons x a ih => cases b with
    | nil => simp [eqList] at h
    | cons y b =>
      simp only [eqList, Bool.and_eq_true, beq_iff_eq] at h
      cases i with
      | zero => simpa [EqOpt, veq] using h.1
      | succ i => simpa using ih h.2 i

theorem eqMap_get {p : Nat} {a b : List (Bytes × Val)} (h : eqMap p a b = true) (k : Bytes) :
    EqOpt p (AMap.get a k) (AMap.get b k) := by
  induction a generalizing b with
  | nil => cases b with
    | nil => simp [EqOpt, AMap.get]
    | cons y b => simp [eqMap] at h
  | cons x a ih => cases b with
    | nil => simp [eqMap] at h
    | cons y b =>
      simp only [eqMap, Bool.and_eq_true, beq_iff_eq] at h
      simp only [AMap.get, h.1.1]
      split
      · simpa [EqOpt, veq] using h.1.2
      · exact ih h.2

theorem veq_elem {p : Nat} {a b : Val} (h : veq p a b = true) (e : PathElem) :
    EqOpt p (getElem? a e) (getElem? b e) := by
  have hc : cmp p a b = 0 := by simpa [veq] using h
  have none_of : ∀ v x, numLD p v = some x → getElem? v e = none := by
    intro v x hv
    cases v <;> cases e <;> first | rfl | simp [numLD] at hv
  cases cmp_zero_cases hc with
  | null | bool | str => cases e <;> trivial
  | list h' => cases e with
    | key k => trivial
    | index i => exact eqList_get h' i.toNat
  | map h' => cases e with
    | key k => exact eqMap_get h' k
    | index i => trivial
  | blob h => cases e <;> trivial
  | num h1 h2 _ => rw [none_of _ _ h1, none_of _ _ h2]; trivial

theorem veq_path {p : Nat} {a b : Val} (h : veq p a b = true) {q : VPath} {c : Val} (hc : getPath? b q = some c) :
    ∃ w, getPath? a q = some w ∧ veq p w c = true := by
  induction q generalizing a b with
  | nil => cases hc; exact ⟨a, rfl, h⟩
  | cons e q ih =>
    have he := veq_elem h e
    rw [getPath?_cons] at hc ⊢
    cases hb : getElem? b e with
    | none => rw [hb] at hc; cases hc
    | some y =>
      rw [hb] at hc he
      cases ha : getElem? a e with
      | none => rw [ha] at he; cases he
      | some x => rw [ha] at he; exact ih he hc

/-! ## The loops, key by key -/

theorem sorted_head {x : Bytes × Val} {r : List (Bytes × Val)} (h : AMap.Sorted (x :: r)) :
    AMap.get r x.1 = none := AMap.get_none_of_above h.1

theorem rupdateMap_get {u : List (Bytes × Val)} (hu : AMap.Sorted u) (b : List (Bytes × Val)) (k : Bytes) :
    AMap.get (rupdate.rupdateMap b u) k = match AMap.get u k with
      | none => AMap.get b k
      | some c => some (rupdate ((AMap.get b k).getD (.map [])) c) := by
  induction u generalizing b with
  | nil => rfl
  | cons x r ih =>
    have hx := sorted_head hu
    simp only [rupdate.rupdateMap]
    rw [ih hu.2]
    by_cases hk : x.1 = k
    · subst hk
      simp only [hx, AMap.get, if_true, AMap.get_set_self]
    · simp only [AMap.get, hk, if_false]
      rw [AMap.get_set_other _ _ _ _ (Ne.symm hk)]

/-- The entry of the difference at a key both maps have. -/
def diffEntry (p : Nat) (b? : Option Val) (c : Val) : Option Val :=
  match b? with
  | none => some (deepCopy c)
  | some b => if veq p b c then none else if blank (rdiff p b c) then none else some (rdiff p b c)

theorem rdiffMap_spec {p : Nat} {m n : List (Bytes × Val)} (hn : AMap.Sorted n) (acc : List (Bytes × Val))
    (hs : AMap.Sorted acc) (ha : ∀ k c, AMap.get n k = some c → AMap.get acc k = none) :
    AMap.Sorted (rdiff.rdiffMap p m n acc) ∧ ∀ k, AMap.get (rdiff.rdiffMap p m n acc) k = match AMap.get n k with
      | none => AMap.get acc k
      | some c => diffEntry p (AMap.get m k) c := by
  induction n generalizing acc with
  | nil => exact ⟨hs, fun _ => rfl⟩
  | cons x r ih =>
    have hx := sorted_head hn
    have hax : AMap.get acc x.1 = none := ha x.1 x.2 (by simp [AMap.get])
    -- one step leaves a sorted difference with the right entry at the key, and the others alone
    have step : ∃ acc', rdiff.rdiffMap p m (x :: r) acc = rdiff.rdiffMap p m r acc' ∧ AMap.Sorted acc' ∧
        AMap.get acc' x.1 = diffEntry p (AMap.get m x.1) x.2 ∧ ∀ k, k ≠ x.1 → AMap.get acc' k = AMap.get acc k := by
      cases hm : AMap.get m x.1 with
      | none =>
        exact ⟨AMap.set acc x.1 (deepCopy x.2), by rw [rdiff.rdiffMap]; simp only [hm], AMap.sorted_set hs _ _, by rw [AMap.get_set_self]; rfl,
          fun k hk => AMap.get_set_other _ _ _ _ hk⟩
      | some b =>
        rw [rdiff.rdiffMap]
        simp only [hm]
        cases hv : veq p b x.2 with
        | true =>
          simp only [if_true, hax, diffEntry, hv]
          exact ⟨acc, rfl, hs, hax, fun _ _ => rfl⟩
        | false =>
          simp only [Bool.false_eq_true, if_false, AMap.get_set_self, diffEntry, hv]
          have hss := AMap.sorted_set hs x.1 (rdiff p b x.2)
          cases hb : blank (rdiff p b x.2) with
          | true =>
            simp only [if_true]
            exact ⟨_, rfl, AMap.sorted_erase hss _, AMap.get_erase_self hss _, fun k hk => by
              rw [AMap.get_erase_other _ _ _ hk, AMap.get_set_other _ _ _ _ hk]⟩
          | false =>
            simp only [Bool.false_eq_true, if_false]
            exact ⟨_, rfl, hss, AMap.get_set_self _ _ _, fun k hk => AMap.get_set_other _ _ _ _ hk⟩
    obtain ⟨acc', h1, h2, h3, h4⟩ := step
    rw [h1]
    obtain ⟨i1, i2⟩ := ih hn.2 acc' h2 (fun k c hk => by
      have hkx : k ≠ x.1 := by rintro rfl; rw [hx] at hk; cases hk
      rw [h4 k hkx]
      exact ha k c (by simp only [AMap.get, Ne.symm hkx, if_false]; exact hk))
    refine ⟨i1, fun k => ?_⟩
    rw [i2 k]
    by_cases hk : x.1 = k
    · subst hk
      simp only [hx, AMap.get, if_true]
      exact h3
    · simp only [AMap.get, hk, if_false]
      rw [h4 k (Ne.symm hk)]

/-- What becomes of the entry at a key of `compare`. -/
def entry (p : Nat) (b? : Option Val) (c : Val) : Val :=
  match b? with
  | none => rupdate (.map []) (deepCopy c)
  | some b => if veq p b c then b else if blank (rdiff p b c) then b else rupdate b (rdiff p b c)

/-- Difference and update, key by key. -/
theorem diff_update_get {p : Nat} {m n : List (Bytes × Val)} (hn : AMap.Sorted n) (k : Bytes) :
    getElem? (rupdate (.map m) (rdiff p (.map m) (.map n))) (.key k) = match AMap.get n k with
      | none => AMap.get m k
      | some c => some (entry p (AMap.get m k) c) := by
  obtain ⟨hs, hg⟩ := rdiffMap_spec (p := p) (m := m) hn [] trivial (fun _ _ _ => rfl)
  show AMap.get (rupdate.rupdateMap m (rdiff.rdiffMap p m n [])) k = _
  rw [rupdateMap_get hs, hg k]
  cases AMap.get n k with
  | none => rfl
  | some c =>
    cases hm : AMap.get m k with
    | none => rfl
    | some b =>
      simp only [diffEntry, entry, Option.getD_some]
      cases veq p b c with
      | true => rfl
      | false => cases blank (rdiff p b c) <;> rfl

theorem entry_maps {p : Nat} {m n : List (Bytes × Val)} (h : veq p (.map m) (.map n) = false) :
    entry p (some (.map m)) (.map n) = rupdate (.map m) (rdiff p (.map m) (.map n)) := by
  simp only [entry, h, Bool.false_eq_true, if_false]
  cases hb : blank (rdiff p (.map m) (.map n)) with
  | false => rfl
  | true =>
    simp only [if_true]
    cases hr : rdiff p (.map m) (.map n) with
    | map u => cases u with
      | nil => rfl
      | cons _ _ => rw [hr] at hb; cases hb
    | null => rfl
    | _ => rw [hr] at hb; cases hb

theorem rdiff_other {p : Nat} {b c : Val} (h : veq p b c = false) (hc : c.ty ≠ .map ∨ b.ty ≠ .map) :
    rdiff p b c = deepCopy c := by
  cases c with
  | map n =>
    cases b with
    | map m => simp [Val.ty] at hc
    | _ => rfl
  | _ => simp only [rdiff, h]; rfl

theorem blank_deepCopy (c : Val) : blank (deepCopy c) = blank c := by
  cases c with
  | map m => cases m <;> rfl
  | _ => rfl

/-! ## Updating -/

/-- A value that is neither null nor a map. -/
def Leaf (v : Val) : Prop := v.ty ≠ .null ∧ v.ty ≠ .map

theorem rupdate_leaf {b u : Val} (hu : u.WF) {q : VPath} {c : Val} (h : getPath? u q = some c) (hc : Leaf c) :
    getPath? (rupdate b u) q = some (deepCopy c) := by
  induction q generalizing b u with
  | nil =>
    cases h
    cases c <;> first | rfl | exact absurd rfl hc.1 | exact absurd rfl hc.2
  | cons e q ih =>
    cases u with
    | map u =>
      cases b with
      | map b =>
        cases e with
        | index i => cases h
        | key k =>
          rw [getPath?_cons] at h ⊢
          show ((AMap.get (rupdate.rupdateMap b u) k).bind _) = _
          have h : ((AMap.get u k).bind fun x => getPath? x q) = some c := h
          rw [rupdateMap_get (wf_sorted hu)]
          cases hk : AMap.get u k with
          | none => rw [hk] at h; cases h
          | some d =>
            rw [hk] at h
            exact ih (map_wf_get hu hk) h
      | _ => exact (getPath?_deepCopy (.map u) _).trans (by rw [h]; rfl)
    | null => rw [getPath?_cons, getElem?_null] at h; cases h
    | _ => exact (getPath?_deepCopy _ _).trans (by rw [h]; rfl)

/-- A path of keys. -/
def Keys (q : VPath) : Prop := ∀ e ∈ q, ∃ k, e = .key k

/-- Before the end of the path the value has only maps and nulls on it. -/
def OpenTo (v : Val) (q : VPath) : Prop :=
  ∀ q' c, q' <+: q → q' ≠ q → getPath? v q' = some c → c.ty = .map ∨ c.ty = .null

theorem OpenTo.child {v c : Val} {e : PathElem} {q : VPath} (h : OpenTo v (e :: q)) (hc : getElem? v e = some c) :
    OpenTo c q := by
  intro q' d h1 h2 h3
  exact h (e :: q') d (by simpa using h1) (by simpa using h2) (by rw [getPath?_cons, hc]; exact h3)

theorem OpenTo.here {v : Val} {e : PathElem} {q : VPath} (h : OpenTo v (e :: q)) : v.ty = .map ∨ v.ty = .null :=
  h [] v List.nil_prefix nofun rfl

theorem key_none {v : Val} {k : Bytes} (h : v.ty ≠ .map) (q : VPath) : getPath? v (.key k :: q) = none := by
  cases v <;> first | rfl | exact absurd rfl h

theorem rupdate_other {b u : Val} (hu : u.WF) {q : VPath} (hq : Keys q) (h : getPath? u q = none)
    (ho : OpenTo u q) (hn : q ≠ []) : getPath? (rupdate b u) q = getPath? b q := by
  induction q generalizing b u with
  | nil => exact absurd rfl hn
  | cons e q ih =>
    obtain ⟨k, rfl⟩ := hq e (by simp)
    have hq' : Keys q := fun e he => hq e (by simp [he])
    cases u with
    | null => rfl
    | map u =>
      cases b with
      | map b =>
        rw [getPath?_cons] at h
        have h : ((AMap.get u k).bind fun x => getPath? x q) = none := h
        rw [getPath?_cons, getPath?_cons]
        show ((AMap.get (rupdate.rupdateMap b u) k).bind _) = ((AMap.get b k).bind _)
        rw [rupdateMap_get (wf_sorted hu)]
        cases hk : AMap.get u k with
        | none => rfl
        | some d =>
          rw [hk] at h
          have hqn : q ≠ [] := by rintro rfl; cases h
          have hd : getElem? (.map u) (.key k) = some d := hk
          have := ih (b := (AMap.get b k).getD (.map [])) (map_wf_get hu hk) hq' h (ho.child hd) hqn
          show getPath? _ q = _
          rw [this]
          cases AMap.get b k with
          | some x => rfl
          | none =>
            cases q with
            | nil => exact absurd rfl hqn
            | cons e q => obtain ⟨k', rfl⟩ := hq' e (by simp); rfl
      | _ =>
        refine (getPath?_deepCopy (.map u) _).trans ?_
        rw [h]; rfl
    | _ => rcases ho.here with h | h <;> cases h

/-! ## The property -/

/-- **C42, the entries of compare.** After updating a map with its difference to another, everything
the other has that is not null and not a map is there. -/
theorem diff_update_present_partial (p : Nat) (m n : List (Bytes × Val)) (hn : (Val.map n).WF) (q : VPath) (c : Val)
    (h : getPath? (.map n) q = some c) (hc : Leaf c) :
    ∃ w, getPath? (rupdate (.map m) (rdiff p (.map m) (.map n))) q = some w ∧ veq p w c = true := by
  induction q generalizing m n with
  | nil => cases h; exact absurd rfl hc.2
  | cons e q ih =>
    cases e with
    | index i => cases h
    | key k =>
      rw [getPath?_cons] at h
      have h : ((AMap.get n k).bind fun x => getPath? x q) = some c := h
      rw [getPath?_cons, diff_update_get (wf_sorted hn)]
      cases hk : AMap.get n k with
      | none => rw [hk] at h; cases h
      | some d =>
        rw [hk] at h
        have h : getPath? d q = some c := h
        have hdw := map_wf_get hn hk
        have copied : ∀ b, ∃ w, getPath? (rupdate b (deepCopy d)) q = some w ∧ veq p w c = true := by
          intro b
          refine ⟨deepCopy (deepCopy c), rupdate_leaf (deepCopy_wf d hdw) (by rw [getPath?_deepCopy, h]; rfl) ?_, ?_⟩
          · exact ⟨by rw [deepCopy_ty]; exact hc.1, by rw [deepCopy_ty]; exact hc.2⟩
          · rw [deepCopy_idem]; exact veq_symm _ _ _ (veq_deepCopy p c)
        show ∃ w, getPath? (entry p (AMap.get m k) d) q = some w ∧ _
        cases hm : AMap.get m k with
        | none => exact copied _
        | some b =>
          cases hv : veq p b d with
          | true => simp only [entry, hv, if_true]; exact veq_path hv h
          | false =>
            have other : (d.ty ≠ .map ∨ b.ty ≠ .map) → ∃ w, getPath? (entry p (some b) d) q = some w ∧ veq p w c = true := by
              intro ho
              have hnb : blank d = false := by
                cases d with
                | null => cases q with
                  | nil => cases h; exact absurd rfl hc.1
                  | cons e q => rw [getPath?_cons, getElem?_null] at h; cases h
                | map l => cases l with
                  | cons _ _ => rfl
                  | nil => cases q with
                    | nil => cases h; exact absurd rfl hc.2
                    | cons e q => cases e <;> cases h
                | _ => rfl
              simp only [entry, hv, Bool.false_eq_true, if_false, rdiff_other hv ho, blank_deepCopy, hnb]
              exact copied b
            cases d with
            | map n' =>
              cases b with
              | map m' => rw [entry_maps hv]; exact ih m' n' hdw h
              | _ => exact other (.inr nofun)
            | _ => exact other (.inl nofun)

/-- **C42, nothing else changes.** A path of keys that compare does not have, and that compare does
not cut off with a value that is not a map, leads to the same as before. -/
theorem diff_update_others_partial (p : Nat) (m n : List (Bytes × Val)) (hn : (Val.map n).WF) (q : VPath)
    (hq : Keys q) (h : getPath? (.map n) q = none) (ho : OpenTo (.map n) q) :
    getPath? (rupdate (.map m) (rdiff p (.map m) (.map n))) q = getPath? (.map m) q := by
  induction q generalizing m n with
  | nil => cases h
  | cons e q ih =>
    obtain ⟨k, rfl⟩ := hq e (by simp)
    have hq' : Keys q := fun e he => hq e (by simp [he])
    rw [getPath?_cons] at h
    have h : ((AMap.get n k).bind fun x => getPath? x q) = none := h
    rw [getPath?_cons, getPath?_cons, diff_update_get (wf_sorted hn)]
    show _ = ((AMap.get m k).bind _)
    cases hk : AMap.get n k with
    | none => rfl
    | some d =>
      rw [hk] at h
      have h : getPath? d q = none := h
      have hdw := map_wf_get hn hk
      have hqn : q ≠ [] := by rintro rfl; cases h
      have hod : OpenTo d q := ho.child (e := .key k) hk
      have copied : ∀ b, getPath? (rupdate b (deepCopy d)) q = getPath? b q := by
        intro b
        refine rupdate_other (deepCopy_wf d hdw) hq' (by rw [getPath?_deepCopy, h]; rfl) ?_ hqn
        intro q' c h1 h2 h3
        rw [getPath?_deepCopy] at h3
        cases hc : getPath? d q' with
        | none => rw [hc] at h3; cases h3
        | some c' => rw [hc] at h3; cases h3; rw [deepCopy_ty]; exact hod q' c' h1 h2 hc
      show getPath? (entry p (AMap.get m k) d) q = _
      cases hm : AMap.get m k with
      | none =>
        refine (copied _).trans ?_
        cases q with
        | nil => exact absurd rfl hqn
        | cons e q => obtain ⟨k', rfl⟩ := hq' e (by simp); rfl
      | some b =>
        show getPath? (entry p (some b) d) q = getPath? b q
        cases hv : veq p b d with
        | true => simp only [entry, hv, if_true]
        | false =>
          have other : (d.ty ≠ .map ∨ b.ty ≠ .map) → getPath? (entry p (some b) d) q = getPath? b q := by
            intro ho
            simp only [entry, hv, Bool.false_eq_true, if_false, rdiff_other hv ho, blank_deepCopy]
            cases blank d
            · exact copied b
            · rfl
          cases d with
          | map n' =>
            cases b with
            | map m' => rw [entry_maps hv]; exact ih m' n' hdw hq' h hod
            | _ => exact other (.inr nofun)
          | _ => exact other (.inl nofun)

/-- **C42, nulls and empty maps.** Where compare has a null or an empty map, what the base has stays. -/
theorem diff_update_blank_partial (p : Nat) (m n : List (Bytes × Val)) (hn : (Val.map n).WF) (q : VPath)
    (hq : Keys q) (hne : q ≠ []) (c b : Val) (h : getPath? (.map n) q = some c) (hc : c = .null ∨ c = .map [])
    (hb : getPath? (.map m) q = some b) :
    getPath? (rupdate (.map m) (rdiff p (.map m) (.map n))) q = some b := by
  induction q generalizing m n with
  | nil => exact absurd rfl hne
  | cons e q ih =>
    obtain ⟨k, rfl⟩ := hq e (by simp)
    have hq' : Keys q := fun e he => hq e (by simp [he])
    rw [getPath?_cons] at h hb
    have h : ((AMap.get n k).bind fun x => getPath? x q) = some c := h
    have hb : ((AMap.get m k).bind fun x => getPath? x q) = some b := hb
    rw [getPath?_cons, diff_update_get (wf_sorted hn)]
    cases hk : AMap.get n k with
    | none => rw [hk] at h; cases h
    | some d =>
      cases hm : AMap.get m k with
      | none => rw [hm] at hb; cases hb
      | some b0 =>
        rw [hk] at h; rw [hm] at hb
        have h : getPath? d q = some c := h
        have hb : getPath? b0 q = some b := hb
        have hdw := map_wf_get hn hk
        show getPath? (entry p (some b0) d) q = some b
        cases hv : veq p b0 d with
        | true => simp only [entry, hv, if_true]; exact hb
        | false =>
          by_cases hbl : blank (rdiff p b0 d) = true
          · simp only [entry, hv, Bool.false_eq_true, if_false, hbl, if_true]; exact hb
          · cases d with
            | map n' =>
              cases b0 with
              | map m' =>
                cases q with
                | nil =>
                  cases h
                  rcases hc with hc | hc <;> cases hc
                  exact absurd rfl hbl
                | cons e q => rw [entry_maps hv]; exact ih m' n' hdw hq' nofun h hb
              | _ =>
                cases q with
                | nil =>
                  cases h
                  rcases hc with hc | hc <;> cases hc
                  exact absurd rfl hbl
                | cons e q => obtain ⟨k', rfl⟩ := hq' e (by simp); cases hb
            | null =>
              rw [rdiff_other hv (.inl nofun)] at hbl
              exact absurd rfl hbl
            | _ =>
              cases q with
              | nil => cases h; rcases hc with hc | hc <;> cases hc
              | cons e q => obtain ⟨k', rfl⟩ := hq' e (by simp); cases h

/-- The property fails when the base is not a map: the difference of equal values is an empty map,
and updating with that replaces the value. -/
theorem diff_update_equal_false (p : Nat) :
    rupdate (.list [.int 1]) (rdiff p (.list [.int 1]) (.list [.int 1])) = .map [] := by
  simp only [rdiff, veq_refl, if_true]
  rfl

/-- A null under a key the base does not have becomes an empty map. -/
theorem diff_update_null_false (p : Nat) :
    rupdate (.map []) (rdiff p (.map []) (.map [([0x61], .null)])) = .map [([0x61], .map [])] := rfl

/-- The hypotheses are met, and the parts of the result are as claimed. -/
example : rupdate (.map [([0x61], .int 1), ([0x62], .map [([0x63], .int 2)])])
      (rdiff 64 (.map [([0x61], .int 1), ([0x62], .map [([0x63], .int 2)])])
        (.map [([0x61], .null), ([0x62], .map [([0x64], .str [0x78])])])) =
    .map [([0x61], .int 1), ([0x62], .map [([0x63], .int 2), ([0x64], .str [0x78])])] := rfl

end Verif.Ext
