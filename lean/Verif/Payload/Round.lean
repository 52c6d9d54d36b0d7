import Verif.Payload.Header
import Verif.Payload.Read
import Verif.Payload.NoNul
import Verif.Payload.Align
/-!
# The payload round trip (C45)
-/

namespace Verif.Payload
open Verif Verif.Event Verif.JsonEmit Verif.JsonDrv Verif.JsonTok Verif.Build

/-! ## Reading back and the element operations -/

section
variable (ff : FloatFmt) (fo : FloatOps) (p : Nat)

theorem get_readBackMap (m : List (Bytes × Val)) (k : Bytes) :
    AMap.get (readBackMap ff fo p m) k = (AMap.get m k).map (readBack ff fo p) := by
  induction m with
  | nil => rfl
  | cons x r ih =>
    obtain ⟨k', v⟩ := x
    simp only [readBackMap, AMap.get]
    split
    · rfl
    · exact ih

theorem readBackMap_set (m : List (Bytes × Val)) (k : Bytes) (x : Val) :
    readBackMap ff fo p (AMap.set m k x) = AMap.set (readBackMap ff fo p m) k (readBack ff fo p x) := by
  induction m with
  | nil => rfl
  | cons y r ih =>
    obtain ⟨k', v⟩ := y
    simp only [readBackMap, AMap.set]
    split
    · rfl
    · split
      · rfl
      · simp [readBackMap, ih]

theorem readBackMap_erase (m : List (Bytes × Val)) (k : Bytes) :
    readBackMap ff fo p (AMap.erase m k) = AMap.erase (readBackMap ff fo p m) k := by
  induction m with
  | nil => rfl
  | cons y r ih =>
    obtain ⟨k', v⟩ := y
    simp only [readBackMap, AMap.erase]
    split
    · rfl
    · simp [readBackMap, ih]

theorem readBackMap_append (a b : List (Bytes × Val)) :
    readBackMap ff fo p (a ++ b) = readBackMap ff fo p a ++ readBackMap ff fo p b := by
  induction a with
  | nil => rfl
  | cons y r ih => simp [readBackMap, ih]

theorem readBackList_eq (xs : List Val) : readBackList ff fo p xs = xs.map (readBack ff fo p) := by
  induction xs with
  | nil => rfl
  | cons x xs ih => simp [readBackList, ih]

theorem getElem?_readBack (v : Val) (e : PathElem) :
    getElem? (readBack ff fo p v) e = (getElem? v e).map (readBack ff fo p) := by
  cases e with
  | key k =>
    cases v <;> simp only [readBack, getElem?, getKey?] <;> try rfl
    · rename_i j; by_cases h : 0 ≤ j.toInt <;> simp [h]
    · rename_i j; by_cases h : nonFinite j = true <;> simp [h]
    · exact get_readBackMap ff fo p _ k
  | index i =>
    cases v <;> simp only [readBack, getElem?, getIndex?] <;> try rfl
    · rename_i j; by_cases h : 0 ≤ j.toInt <;> simp [h]
    · rename_i j; by_cases h : nonFinite j = true <;> simp [h]
    · rw [readBackList_eq, List.getElem?_map]

theorem getPath?_readBack (v : Val) (q : VPath) :
    getPath? (readBack ff fo p v) q = (getPath? v q).map (readBack ff fo p) := by
  induction q generalizing v with
  | nil => rfl
  | cons e q ih =>
    rw [getPath?_cons, getPath?_cons, getElem?_readBack]
    cases getElem? v e with
    | none => rfl
    | some c => exact ih c

theorem readBack_putElem (v : Val) (e : PathElem) (c : Val) :
    readBack ff fo p (putElem v e c) = putElem (readBack ff fo p v) e (readBack ff fo p c) := by
  cases e with
  | key k =>
    cases v <;> simp only [readBack, putElem] <;> try rfl
    · split <;> rfl
    · split <;> rfl
    · rw [readBackMap_set]
  | index i =>
    cases v <;> simp only [readBack, putElem] <;> try rfl
    · split <;> rfl
    · split <;> rfl
    · rw [readBackList_eq, readBackList_eq, List.map_set]

theorem readBack_without (v : Val) (q : VPath) :
    readBack ff fo p (without v q) = without (readBack ff fo p v) q := by
  induction q generalizing v with
  | nil => rfl
  | cons e q ih =>
    simp only [without, getElem?_readBack]
    cases hc : getElem? v e with
    | none => rfl
    | some c =>
      simp only [Option.map_some]
      cases e with
      | index i =>
        simp only [readBack_putElem, ih]
      | key k =>
        cases v <;> simp [getElem?, getKey?] at hc
        rename_i m
        simp only [readBack]
        cases q with
        | nil => simp only [readBack, readBackMap_erase]
        | cons e' q =>
          simp only [readBack_putElem, ih]
          rfl

end

/-! ## Taking out and putting back -/

theorem without_step {v c : Val} {e : PathElem} {q : VPath} (hc : getElem? v e = some c)
    (h : q ≠ [] ∨ ∃ i, e = .index i) : without v (e :: q) = putElem v e (without c q) := by
  simp only [without, hc]
  cases e with
  | index i => rfl
  | key k => cases q with
    | cons _ _ => rfl
    | nil => simp at h

theorem without_key {m : List (Bytes × Val)} {c : Val} {k : Bytes} (hc : AMap.get m k = some c) :
    without (.map m) [.key k] = .map (AMap.erase m k) := by
  have : getElem? (.map m) (.key k) = some c := hc
  simp [without, this]

theorem without_wf {v : Val} {q : VPath} (h : v.WF) : (without v q).WF := by
  induction q generalizing v with
  | nil => trivial
  | cons e q ih =>
    simp only [without]
    split
    · exact h
    · rename_i c hc
      split
      · rename_i k m _
        rw [Val.WF] at h ⊢
        refine ⟨AMap.sorted_erase h.1 _, ?_⟩
        rw [WFMap_iff] at h ⊢
        exact fun p hp => h.2 p (AMap.mem_erase hp)
      · exact putElem_wf h (ih (getElem?_wf h hc))

/-- Putting the value back at its path gives the whole value again. -/
theorem without_set {v x : Val} {q : VPath} (hw : v.WF) (hq : q ≠ []) (h : getPath? v q = some x) :
    setPath (without v q) q x = (v, none) := by
  induction q generalizing v with
  | nil => exact absurd rfl hq
  | cons e q ih =>
    rw [getPath?_cons] at h
    cases hc : getElem? v e with
    | none => rw [hc] at h; cases h
    | some c =>
      rw [hc] at h
      have h : getPath? c q = some x := h
      have hcw := getElem?_wf hw hc
      by_cases hs : q ≠ [] ∨ ∃ i, e = .index i
      · rw [without_step hc hs, setPath, getElem?_putElem_self hc]
        have e2 : setPath (without c q) q x = (c, none) := by
          by_cases hq0 : q = []
          · subst hq0; cases h; rfl
          · exact ih hcw hq0 h
        simp only [e2, putElem_putElem, putElem_same hw hc]
      · simp only [ne_eq, not_or, not_exists, Decidable.not_not] at hs
        obtain ⟨rfl, hi⟩ := hs
        cases h
        cases e with
        | index i => exact absurd rfl (hi i)
        | key k =>
          cases v <;> simp [getElem?, getKey?] at hc
          rename_i m
          rw [Val.WF] at hw
          rw [without_key hc]
          have hn : getElem? (.map (AMap.erase m k)) (.key k) = none := AMap.get_erase_self hw.1 k
          simp only [setPath, hn, if_true, setElem, setKey, Prod.mk.injEq, Val.map.injEq, and_true]
          apply AMap.ext (AMap.sorted_set (AMap.sorted_erase hw.1 _) _ _) hw.1
          intro k'
          by_cases hk : k' = k
          · subst hk; rw [AMap.get_set_self, hc]
          · rw [AMap.get_set_other _ _ _ _ hk, AMap.get_erase_other _ _ _ hk]

theorem set_comm {m : List (Bytes × Val)} (hs : AMap.Sorted m) {k k' : Bytes} (x x' : Val) (h : k ≠ k') :
    AMap.set (AMap.set m k x) k' x' = AMap.set (AMap.set m k' x') k x := by
  apply AMap.ext (AMap.sorted_set (AMap.sorted_set hs _ _) _ _) (AMap.sorted_set (AMap.sorted_set hs _ _) _ _)
  intro j
  by_cases h1 : j = k'
  · subst h1; rw [AMap.get_set_self, AMap.get_set_other _ _ _ _ (Ne.symm h), AMap.get_set_self]
  · rw [AMap.get_set_other _ _ _ _ h1]
    by_cases h2 : j = k
    · subst h2; rw [AMap.get_set_self, AMap.get_set_self]
    · rw [AMap.get_set_other _ _ _ _ h2, AMap.get_set_other _ _ _ _ h2, AMap.get_set_other _ _ _ _ h1]

theorem erase_set_comm {m : List (Bytes × Val)} (hs : AMap.Sorted m) {k k' : Bytes} (x : Val) (h : k ≠ k') :
    AMap.set (AMap.erase m k) k' x = AMap.erase (AMap.set m k' x) k := by
  apply AMap.ext (AMap.sorted_set (AMap.sorted_erase hs _) _ _) (AMap.sorted_erase (AMap.sorted_set hs _ _) _)
  intro j
  by_cases h1 : j = k
  · subst h1
    rw [AMap.get_set_other _ _ _ _ h, AMap.get_erase_self hs, AMap.get_erase_self (AMap.sorted_set hs _ _)]
  · rw [AMap.get_erase_other _ _ _ h1]
    by_cases h2 : j = k'
    · subst h2; rw [AMap.get_set_self, AMap.get_set_self]
    · rw [AMap.get_set_other _ _ _ _ h2, AMap.get_set_other _ _ _ _ h2, AMap.get_erase_other _ _ _ h1]

theorem set_set (m : List (Bytes × Val)) (k : Bytes) (x y : Val) : AMap.set (AMap.set m k x) k y = AMap.set m k y := by
  have := @putElem_putElem (.map m) x y (.key k)
  simpa [putElem] using this

/-- Writing into a map along a path. -/
theorem setPath_map {m : List (Bytes × Val)} {k : Bytes} {q : VPath} {x : Val} :
    (setPath (.map m) (.key k :: q) x).1 = .map (AMap.set m k (setPath ((AMap.get m k).getD .null) q x).1) ∧
    ((setPath (.map m) (.key k :: q) x).2 = none ↔ (setPath ((AMap.get m k).getD .null) q x).2 = none) := by
  rw [setPath]
  cases hc : AMap.get m k with
  | some c =>
    have hc' : getElem? (.map m) (.key k) = some c := hc
    rw [hc']
    exact ⟨rfl, Iff.rfl⟩
  | none =>
    have hc' : getElem? (.map m) (.key k) = none := hc
    rw [hc']
    by_cases hq : q = []
    · subst hq; simp [setElem, setKey, setPath]
    · simp only [hq, if_false, setElem, setKey, Option.getD_none, putElem, set_set]
      simp

/-- Taking out at one path and writing at another commute. -/
theorem without_comm {l : VPath} : ∀ {v : Val} {d : VPath} {x : Val}, v.WF → MapsTo v l → Diverge l d →
    (getPath? v d).isSome → (setPath v l x).2 = none →
    setPath (without v d) l x = (without (setPath v l x).1 d, none) := by
  induction l with
  | nil => intro v d x _ _ hd; exact absurd List.nil_prefix hd.1
  | cons e l ih =>
    intro v d x hw hM hdv hg hok
    cases d with
    | nil => exact absurd hdv diverge_nil
    | cons f d =>
      cases e with
      | index i => cases v <;> simp [MapsTo] at hM
      | key k =>
        cases v <;> try (simp [MapsTo] at hM; done)
        rename_i m
        have hs : AMap.Sorted m := by rw [Val.WF] at hw; exact hw.1
        rw [getPath?_cons] at hg
        cases f with
        | index i => simp [getElem?, getIndex?] at hg
        | key k2 =>
          cases hc2 : AMap.get m k2 with
          | none => simp [getElem?, getKey?, hc2] at hg
          | some c2 =>
            have hc2' : getElem? (.map m) (.key k2) = some c2 := hc2
            rw [hc2'] at hg
            have hg : (getPath? c2 d).isSome := hg
            obtain ⟨s1, s2⟩ := @setPath_map m k l x
            have hpair : ∀ m', (setPath (.map m') (.key k :: l) x).1 = .map (AMap.set m' k (setPath ((AMap.get m' k).getD .null) l x).1) ∧ _ :=
              fun m' => @setPath_map m' k l x
            rw [s1]
            by_cases hk : k = k2
            · subst hk
              have hdv' := diverge_cons hdv
              have hd0 : d ≠ [] := by rintro rfl; exact diverge_nil hdv'
              rw [without_step hc2' (.inl hd0)]
              have hcw := getElem?_wf hw hc2'
              have hMc : MapsTo c2 l := by simpa [MapsTo, hc2] using hM
              rw [hc2] at s2
              have hi := ih hcw hMc hdv' hg (s2.mp hok)
              obtain ⟨t1, t2⟩ := hpair (AMap.set m k (without c2 d))
              rw [AMap.get_set_self, Option.getD_some, hi] at t1 t2
              have hg3 : getElem? (.map (AMap.set m k (setPath c2 l x).1)) (.key k) = some (setPath c2 l x).1 :=
                AMap.get_set_self _ _ _
              rw [hc2, Option.getD_some, without_step hg3 (.inl hd0)]
              apply Prod.ext
              · show (setPath (.map _) _ _).1 = _
                rw [t1, set_set]
                simp [putElem, set_set]
              · exact t2.mpr rfl
            · by_cases hd0 : d = []
              · subst hd0
                rw [without_key hc2]
                obtain ⟨t1, t2⟩ := hpair (AMap.erase m k2)
                rw [AMap.get_erase_other _ _ _ hk] at t1 t2
                have hg3 : AMap.get (AMap.set m k (setPath ((AMap.get m k).getD .null) l x).1) k2 = some c2 := by
                  rw [AMap.get_set_other _ _ _ _ (Ne.symm hk), hc2]
                rw [without_key hg3]
                apply Prod.ext
                · rw [t1, erase_set_comm hs _ (Ne.symm hk)]
                · exact t2.mpr (s2.mp hok)
              · rw [without_step hc2' (.inl hd0)]
                obtain ⟨t1, t2⟩ := hpair (AMap.set m k2 (without c2 d))
                rw [AMap.get_set_other _ _ _ _ hk] at t1 t2
                have hg3 : getElem? (.map (AMap.set m k (setPath ((AMap.get m k).getD .null) l x).1)) (.key k2) = some c2 := by
                  show AMap.get _ _ = _
                  rw [AMap.get_set_other _ _ _ _ (Ne.symm hk), hc2]
                rw [without_step hg3 (.inl hd0)]
                apply Prod.ext
                · show (setPath (.map _) _ _).1 = _
                  rw [t1, set_comm hs _ _ (Ne.symm hk)]
                  rfl
                · exact t2.mpr (s2.mp hok)

/-- The length can be written along a path of maps. -/
theorem setPath_mapsTo {l : VPath} : ∀ {v : Val} {x : Val}, MapsTo v l → NoMaxIndex l → (setPath v l x).2 = none := by
  induction l with
  | nil => intro v x _ _; rfl
  | cons e l ih =>
    intro v x hM hm
    have hm' : NoMaxIndex l := fun h => hm (by simp [h])
    cases e with
    | index i => cases v <;> simp [MapsTo] at hM
    | key k =>
      cases v <;> try (simp [MapsTo] at hM; done)
      rename_i m
      rw [(setPath_map).2]
      simp only [MapsTo] at hM
      cases hc : AMap.get m k with
      | none =>
        obtain ⟨t, ht⟩ := setPath_null_succeeds hm' x
        simp [ht]
      | some c =>
        rw [hc] at hM
        exact ih hM hm'

theorem setPath_wf {v x : Val} {q : VPath} (hv : v.WF) (hx : x.WF) : (setPath v q x).1.WF := by
  induction q generalizing v with
  | nil => exact hx
  | cons e q ih =>
    rw [setPath]
    split
    · rename_i c hc
      exact putElem_wf hv (ih (getElem?_wf hv hc))
    · split
      · exact setElem_wf hv hx
      · have h1 := setElem_wf (e := e) hv (x := .null) trivial
        split
        · rename_i h; rw [h] at h1; exact h1
        · rename_i h; rw [h] at h1
          exact putElem_wf h1 (ih (v := .null) trivial)

/-! ## The value of the header read back -/

section
variable {ff : FloatFmt} {fo : FloatOps} {p : Nat}

theorem valueMap_append (a b : List (Bytes × ETree)) : valueMap (a ++ b) = valueMap a ++ valueMap b := by
  induction a with
  | nil => rfl
  | cons x a ih => obtain ⟨k, y⟩ := x; simp [valueMap, ih]

theorem treeOfMap_append (a b : List (Bytes × Val)) : treeOfMap (a ++ b) = treeOfMap a ++ treeOfMap b := by
  induction a with
  | nil => rfl
  | cons x a ih => obtain ⟨k, y⟩ := x; simp [treeOfMap, ih]

theorem valueMap_set (m : List (Bytes × Val)) (k : Bytes) (x : Val) :
    valueMap (treeOfMap (AMap.set m k x)) = AMap.set (valueMap (treeOfMap m)) k (treeOf x).value := by
  induction m with
  | nil => rfl
  | cons y r ih =>
    obtain ⟨k', v⟩ := y
    simp only [treeOfMap, valueMap, AMap.set]
    split
    · rfl
    · split
      · rfl
      · simp [treeOfMap, valueMap, ih]

theorem lenTree_value {n : UInt64} {l : VPath} : ∀ {v : Val}, v.WF → MapsTo v l →
    (treeOf (readBack ff fo p (lenTree n v l))).value = readBack ff fo p (setPath v l (.uint n)).1 := by
  induction l with
  | nil => intro v _ _; rfl
  | cons e l ih =>
    intro v hw hM
    cases e with
    | index i => cases v <;> simp [MapsTo] at hM
    | key k =>
      cases v <;> try (simp [MapsTo] at hM; done)
      rename_i m
      have hw' := hw
      rw [Val.WF] at hw
      have hM' : valueMap (treeOfMap (readBackMap ff fo p m)) = readBackMap ff fo p m :=
        treeOfMap_value _ (readBackMap_wf ff fo p m hw.2)
      have hsM := readBackMap_sorted ff fo p m hw.1
      rw [(setPath_map).1]
      simp only [readBack, readBackMap_set]
      simp only [MapsTo] at hM
      cases hc : AMap.get m k with
      | some c =>
        rw [hc] at hM
        have hcw := getElem?_wf (e := .key k) hw' hc
        simp only [lenTree, hc, readBack, readBackMap_set, treeOf, ETree.value, valueMap_set, hM', ih hcw hM,
          Option.getD_some]
        rw [insertAll_sorted (AMap.sorted_set hsM _ _)]
      | none =>
        have ht : (setPath .null l (.uint n)).1.WF := setPath_wf (v := .null) trivial trivial
        simp only [lenTree, hc, readBack, readBackMap_append, treeOf, ETree.value, treeOfMap_append, valueMap_append,
          hM', Option.getD_none]
        rw [insertAll_append, insertAll_sorted hsM]
        simp only [readBackMap, treeOfMap, valueMap, insertAll, treeOf_value _ (readBack_wf ff fo p _ ht)]
end

/-! ## The header can be carried -/

theorem plainList_replicate (n : Nat) (x : Val) (h : Plain x) : PlainList (List.replicate n .null ++ [x]) := by
  induction n with
  | zero => exact ⟨h, trivial⟩
  | succ n ih => exact ⟨trivial, ih⟩

theorem setPath_null_eq {e : PathElem} {q : VPath} {x : Val} (hm : e ≠ .index 0xFFFFFFFF) :
    (setPath .null (e :: q) x).1 = match e with
      | .key k => .map [(k, (setPath .null q x).1)]
      | .index i => .list (List.replicate i.toNat .null ++ [(setPath .null q x).1]) := by
  cases e with
  | key k =>
    rw [setPath, getElem?_null]
    by_cases hq : q = []
    · subst hq; rfl
    · simp [hq, setElem, setKey, putElem, AMap.set]
  | index i =>
    have hi : i ≠ 0xFFFFFFFF := fun h => hm (by rw [h])
    have key : ∀ y, setElem .null (.index i) y = (.list (List.replicate i.toNat .null ++ [y]), none) := by
      intro y
      simp only [setElem, setIndex, setIndexList, uint32_add_one hi]
      simp [List.replicate_succ']
    rw [setPath, getElem?_null]
    by_cases hq : q = []
    · subst hq; simp only [if_true, key]; rfl
    · simp [hq, key, putElem]

theorem plain_setPath_null {q : VPath} {n : UInt64} (hm : NoMaxIndex q) (hk : PlainKeys q) :
    Plain (setPath .null q (.uint n)).1 := by
  induction q with
  | nil => trivial
  | cons e q ih =>
    have h := ih (fun h => hm (by simp [h])) (fun k h => hk k (by simp [h]))
    rw [setPath_null_eq (fun h => hm (by simp [h]))]
    cases e with
    | key k => exact ⟨hk k (by simp), h, trivial⟩
    | index i => exact plainList_replicate _ _ h

theorem plainMap_set {m : List (Bytes × Val)} {k : Bytes} {x : Val} (h : PlainMap m) (hk : PlainStr k) (hx : Plain x) :
    PlainMap (AMap.set m k x) := by
  induction m with
  | nil => exact ⟨hk, hx, trivial⟩
  | cons y r ih =>
    obtain ⟨k', v⟩ := y
    simp only [PlainMap] at h
    simp only [AMap.set]
    split
    · exact ⟨hk, hx, h.2.2⟩
    · split
      · exact ⟨hk, hx, h⟩
      · exact ⟨h.1, h.2.1, ih h.2.2⟩

theorem plainMap_append {a b : List (Bytes × Val)} (ha : PlainMap a) (hb : PlainMap b) : PlainMap (a ++ b) := by
  induction a with
  | nil => exact hb
  | cons y r ih =>
    obtain ⟨k', v⟩ := y
    exact ⟨ha.1, ha.2.1, ih ha.2.2⟩

theorem plainMap_get {m : List (Bytes × Val)} {k : Bytes} {c : Val} (h : PlainMap m) (hc : AMap.get m k = some c) : Plain c := by
  induction m with
  | nil => cases hc
  | cons y r ih =>
    obtain ⟨k', v⟩ := y
    simp only [AMap.get] at hc
    split at hc
    · cases hc; exact h.2.1
    · exact ih h.2.2 hc

theorem plain_lenTree {n : UInt64} {l : VPath} : ∀ {v : Val}, Plain v → NoMaxIndex l → PlainKeys l → Plain (lenTree n v l) := by
  induction l with
  | nil => intro v _ _ _; trivial
  | cons e l ih =>
    intro v hv hm hk
    have hm' : NoMaxIndex l := fun h => hm (by simp [h])
    have hk' : PlainKeys l := fun k h => hk k (by simp [h])
    cases e with
    | index i => cases v <;> exact hv
    | key k =>
      cases v <;> try exact hv
      rename_i m
      simp only [lenTree]
      cases hc : AMap.get m k with
      | some c => exact plainMap_set hv (hk k (by simp)) (ih (plainMap_get hv hc) hm' hk')
      | none => exact plainMap_append hv ⟨hk k (by simp), plain_setPath_null hm' hk', trivial⟩

theorem mapsTo_without {l : VPath} : ∀ {v : Val} {d : VPath}, v.WF → MapsTo v l → Diverge l d →
    (getPath? v d).isSome → MapsTo (without v d) l := by
  induction l with
  | nil => intro v d _ _ _ _; exact trivial
  | cons e l ih =>
    intro v d hw hM hdv hg
    cases d with
    | nil => exact absurd hdv diverge_nil
    | cons f d =>
      cases e with
      | index i => cases v <;> simp [MapsTo] at hM
      | key k =>
        cases v <;> try (simp [MapsTo] at hM; done)
        rename_i m
        have hs : AMap.Sorted m := by rw [Val.WF] at hw; exact hw.1
        obtain ⟨m2, h1, h2, h3⟩ := withoutO_map hs (d := some (f :: d)) (by simp) (by
          intro q hq; cases hq; exact hg)
        rw [getPath?_cons] at hg
        rw [show without (.map m) (f :: d) = .map m2 from h1]
        cases f with
        | index i => simp [getElem?, getIndex?] at hg
        | key k2 =>
          simp only [MapsTo] at hM ⊢
          have h3 := h3 k
          by_cases hk : k2 = k
          · subst hk
            have hdv' := diverge_cons hdv
            have hd0 : d ≠ [] := by rintro rfl; exact diverge_nil hdv'
            rw [if_neg (by simp [hd0])] at h3
            cases hc : AMap.get m k2 with
            | none => rw [hc] at h3; rw [h3]; trivial
            | some c =>
              have hc' : getElem? (.map m) (.key k2) = some c := hc
              rw [hc] at h3 hM
              rw [hc'] at hg
              have e : next (pathText (some (.key k2 :: d)) = some k2) (some (.key k2 :: d)) = some d := by
                simp [next, pathText, elemText]
              rw [e] at h3
              rw [h3]
              exact ih (getElem?_wf hw hc') hM hdv' hg
          · rw [if_neg (by simp [pathText, elemText, hk])] at h3
            have e : next (pathText (some (.key k2 :: d)) = some k) (some (.key k2 :: d)) = none := by
              simp [next, pathText, elemText, hk]
            rw [e] at h3
            have h4 : AMap.get m2 k = AMap.get m k := by rw [h3]; cases AMap.get m k <;> rfl
            rw [h4]
            exact hM

theorem lenTree_container {n : UInt64} {v : Val} {l : VPath} (h : MapsTo v l) (hl : l ≠ []) : IsContainer (lenTree n v l) := by
  cases l with
  | nil => exact absurd rfl hl
  | cons e l =>
    cases e with
    | index i => cases v <;> simp [MapsTo] at h
    | key k =>
      cases v <;> try (simp [MapsTo] at h; done)
      simp only [lenTree]
      split <;> trivial

/-! ## The round trip -/

theorem emitOps_body {ff : FloatFmt} {c : Cfg} {v : Val} {cs : List Chunk} {st : List ES}
    (h : emitOps ff c [] (opsOf v) = .ok (cs, st)) : body ff c 0 v = .ok (text cs) := by
  have h1 := emit_val ff c v []
  unfold emitText at h1
  rw [h] at h1
  cases h2 : body ff c ([] : List ES).length v <;> rw [h2] at h1 <;> simp [sepT, checkSep] at h1 h2
  rw [h1.1]

theorem parseHeader_eq {fo : FloatOps} {g : Nat → Nat} {s : Input} {p' : JP} {left : Bytes} {w : Val}
    (h : parseAll fo started (before s.rem) = .ok (p', left)) (h1 : p'.status = .end)
    (h2 : p'.build = ⟨[.root w true], .null, false⟩) :
    ∃ s', parseHeader fo g s = .ok (w, s') ∧ s'.rem = left ++ after s.rem := by
  have hp := parseProxy_eq fo g s.rem.length started s rfl
  rw [h] at hp
  unfold parseHeader
  have hb : Build.event fo.fltText BState.init .beginDoc = .ok started.build := rfl
  rw [hb]
  simp only [Out.bind_ok]
  rw [show ({ JP.init with status := .begin, build := started.build } : JP) = started from rfl]
  cases hq : parseProxy fo g started s 0 with
  | throw e => rw [hq] at hp; simp at hp
  | ub => rw [hq] at hp; simp at hp
  | ok r =>
    rw [hq] at hp
    simp at hp
    obtain ⟨rfl, hr⟩ := hp
    simp only [Out.bind_ok, h1, h2]
    refine ⟨r.2, ?_, hr⟩
    simp [event, finish, Frame.result]

/-- Reading what was written, up to and including the NUL, when the calls made for the header are
those for a value `R`. -/
theorem header_read {num : Bytes → Option UInt64} {ff : FloatFmt} {fo : FloatOps} (hl : FloatLaw ff fo)
    {c : Cfg} {w : Nat → Nat} {o : Opts} {m m' : Mach} {v R : Val}
    (hb : m.buf = []) (hw : ∀ i, 32 ≤ w i) (hs : serializeTo num ff c w o m v = .ok m')
    (hcont : IsContainer R) (hplain : Plain R)
    (hR : ∀ n, (o.payloadLength = none → ∀ s, getPath? v o.dataPath = some (.blob s) →
        n = UInt64.ofNat (Blob.totalLength (s.map (·.length)))) →
      Emits (payloadCalls num n v (some o.lengthPath) (some o.dataPath)) R) :
    ∃ bytes, m'.out = m.out ++ bytes ∧ ∀ (g : Nat → Nat) (calls : Nat) (rest : Bytes),
      ∃ s', parseHeader fo g ⟨bytes ++ rest, calls⟩ = .ok ((treeOf (readBack ff fo c.precision R)).value, s') ∧
        (skipNul g s').rem = payloadBytes v o ++ rest := by
  obtain ⟨hty, n, calls, cs, st, m1, hnl, hcalls, hops, h1, h2⟩ := serializeTo_eq hb hs
  obtain ⟨calls', hc1, hc2⟩ := hR n hnl
  rw [hcalls] at hc1
  cases hc1
  rw [hc2] at hops
  have hbody := emitOps_body hops
  have hnul := body_noNul hl c _ 0 _ hplain hbody
  have hpad := padLen_spec m1.out.length
  refine ⟨text cs ++ List.replicate (padLen m1.out.length) 10 ++ [0] ++ payloadBytes v o, ?_, ?_⟩
  · rw [h2, writePad_whole _ _ _ hpad.1 (Nat.le_trans hpad.2.1 (hw _)), h1]
    simp
  intro g calls rest
  generalize padLen m1.out.length = k at *
  have hnul' : (0 : UInt8) ∉ text cs ++ List.replicate k 10 := by
    simp [hnul]
  have erem : text cs ++ List.replicate k 10 ++ [0] ++ payloadBytes v o ++ rest =
      (text cs ++ List.replicate k 10) ++ 0 :: (payloadBytes v o ++ rest) := by simp
  have hba := before_split (b := payloadBytes v o ++ rest) hnul'
  rw [erem]
  obtain ⟨p', g1, g2, g3⟩ := read_container_raw hl c _ hcont hplain (text cs) (List.replicate k 10) hbody
  have hpa : parseAll fo started (before ((text cs ++ List.replicate k 10) ++ 0 :: (payloadBytes v o ++ rest))) =
      .ok (p', List.replicate k 10) := by
    rw [hba.1, parseAll, g1]
    simp [running, g2]
  obtain ⟨s', k1, k2⟩ := parseHeader_eq (g := g) (s := ⟨_, calls⟩) hpa g2 g3
  simp only [hba.2] at k2
  refine ⟨s', k1, ?_⟩
  rw [skipNul_rem, k2, (before_split (a := List.replicate k 10) (by simp)).2]
  rfl

/-- What the round-trip statements assume of the value and the two paths: there is a payload at the
data path; the rest of the value is one JSON text can carry; the length path meets only maps, parts
ways with the data path, and its own keys can be carried. -/
structure Sound (v : Val) (o : Opts) (segs : List Bytes) : Prop where
  wf : v.WF
  payload : getPath? v o.dataPath = some (.blob segs)
  maps : MapsTo v o.lengthPath
  noMax : NoMaxIndex o.lengthPath
  apart : Diverge o.lengthPath o.dataPath
  plain : Plain (without v o.dataPath)
  keys : PlainKeys o.lengthPath
  short : segs.flatten.length < 2 ^ 32

/-- The header read back is the value with its length and without the payload. -/
theorem header_round {num : Bytes → Option UInt64} {ff : FloatFmt} {fo : FloatOps} (hl : FloatLaw ff fo)
    {c : Cfg} {w : Nat → Nat} {o : Opts} {m m' : Mach} {v : Val} {segs : List Bytes} (h : Sound v o segs)
    (hb : m.buf = []) (hw : ∀ i, 32 ≤ w i) (hn : o.payloadLength = none) (hs : serializeTo num ff c w o m v = .ok m') :
    ∃ v1 bytes, setPath v o.lengthPath (.uint (UInt64.ofNat segs.flatten.length)) = (v1, none) ∧ v1.WF ∧
      getPath? v1 o.dataPath = some (.blob segs) ∧
      getPath? (without v1 o.dataPath) o.lengthPath = some (.uint (UInt64.ofNat segs.flatten.length)) ∧
      m'.out = m.out ++ bytes ∧ ∀ (g : Nat → Nat) (calls : Nat) (rest : Bytes),
      ∃ s', parseHeader fo g ⟨bytes ++ rest, calls⟩ = .ok (readBack ff fo c.precision (without v1 o.dataPath), s') ∧
        (skipNul g s').rem = payloadBytes v o ++ rest := by
  have hlen : segs.flatten.length = (segs.map (·.length)).sum := by simp [List.length_flatten]
  have hsome : (getPath? v o.dataPath).isSome := by rw [h.payload]; rfl
  have hMw := mapsTo_without h.wf h.maps h.apart hsome
  have hread := header_read hl hb hw hs (R := lenTree (UInt64.ofNat segs.flatten.length) (without v o.dataPath) o.lengthPath)
    (lenTree_container hMw (fun e => h.apart.1 (by rw [e]; exact List.nil_prefix)))
    (plain_lenTree h.plain h.noMax h.keys) (by
      intro n hnl
      have e : n = UInt64.ofNat segs.flatten.length := by
        rw [hnl hn segs h.payload, Blob.totalLength_eq _ (by rw [← hlen]; exact h.short), hlen]
      subst e
      exact payloadCalls_hdr num _ _ v (some o.lengthPath) (some o.dataPath) (Nat.le_refl _) h.wf
        (fun q e => by cases e; exact ⟨h.maps, h.noMax⟩) (fun q e => by cases e; exact hsome)
        (fun q r e e' => by cases e; cases e'; exact h.apart))
  generalize UInt64.ofNat segs.flatten.length = n at *
  have hsv := setPath_mapsTo (x := .uint n) h.maps h.noMax
  have hv1 : setPath v o.lengthPath (.uint n) = ((setPath v o.lengthPath (.uint n)).1, none) := Prod.ext rfl hsv
  have hcomm := without_comm (x := .uint n) h.wf h.maps h.apart hsome hsv
  have hval := lenTree_value (ff := ff) (fo := fo) (p := c.precision) (n := n) (without_wf (q := o.dataPath) h.wf) hMw
  rw [hcomm] at hval
  obtain ⟨bytes, h1, h2⟩ := hread
  refine ⟨_, bytes, hv1, setPath_wf h.wf trivial, ?_, ?_, h1, ?_⟩
  · rcases setPath_frame hv1 h.apart with h' | ⟨h', _⟩
    · rw [h', h.payload]
    · rw [h.payload] at h'; cases h'
  · have := setPath_below hcomm []
    simpa [getPath?] using this
  · intro g calls rest
    rw [← hval]
    exact h2 g calls rest

/-- C45, partial: a header and payload written to an output that takes at least 33 bytes of a block,
and read back from any input, with anything following: the value read is the value written with the
payload length stored at the length path, up to the changes JSON makes (`readBack`), the payload at
the data path included, and exactly the written bytes are consumed.
Missing: outputs with short writes (`payload_nul_false`), empty payloads (`payload_empty_lost`), and
the paths `Sound` excludes (`payload_same_path_false`, `payload_null_false`, `payload_list_false`);
and header formats other than JSON. -/
theorem payload_round_trip_partial {num num' : Bytes → Option UInt64} {ff : FloatFmt} {fo : FloatOps} (hl : FloatLaw ff fo)
    {c : Cfg} {w : Nat → Nat} {o : Opts} {m m' : Mach} {v : Val} {segs : List Bytes} (h : Sound v o segs)
    (hb : m.buf = []) (hw : ∀ i, 32 ≤ w i) (hi : o.ignorePayload = false) (hn : o.payloadLength = none)
    (hpos : segs.flatten ≠ []) (hs : serializeTo num ff c w o m v = .ok m') :
    ∃ v1 bytes, setPath v o.lengthPath (.uint (UInt64.ofNat segs.flatten.length)) = (v1, none) ∧
      getPath? (readBack ff fo c.precision v1) o.dataPath = some (.blob [segs.flatten]) ∧
      m'.out = m.out ++ bytes ∧
      ∀ (g : Nat → Nat) (calls : Nat) (rest : Bytes),
        (fun r => (r.1, r.2.rem)) <$> deserializeFrom num' fo g o ⟨bytes ++ rest, calls⟩ =
          .ok (readBack ff fo c.precision v1, rest) := by
  obtain ⟨v1, bytes, h1, h2, h3, h4, h5, h6⟩ := header_round hl h hb hw hn hs
  have hr1 : getPath? (readBack ff fo c.precision v1) o.dataPath = some (.blob [segs.flatten]) := by
    rw [getPath?_readBack, h3]; rfl
  refine ⟨v1, bytes, h1, hr1, h5, ?_⟩
  intro g calls rest
  obtain ⟨s', k1, hskip⟩ := h6 g calls rest
  have hpb : payloadBytes v o = segs.flatten := by simp [payloadBytes, h.payload, hi]
  have hlt := h.short
  rw [hpb] at hskip
  have hnn : (UInt64.ofNat segs.flatten.length).toNat = segs.flatten.length := by
    rw [UInt64.toNat_ofNat_of_lt']
    show _ < 2 ^ 64
    omega
  generalize UInt64.ofNat segs.flatten.length = n at *
  unfold deserializeFrom
  rw [k1]
  simp only [Out.bind_ok]
  have hgp : getPathDef (readBack ff fo c.precision (without v1 o.dataPath)) o.lengthPath (.uint 0) = .uint n := by
    unfold getPathDef
    rw [getPath?_readBack, h4]
    rfl
  rw [hgp]
  have hau : asUnsigned num' (.uint n) = .ok n := rfl
  have hlp : 0 < segs.flatten.length := List.length_pos_iff.mpr hpos
  rw [hau]
  simp only [Out.bind_ok]
  rw [if_pos (by omega), Nat.mod_eq_of_lt (by omega)]
  simp only [getPtr, hskip, hnn]
  rw [if_neg (by simp; omega)]
  have htake : List.take segs.flatten.length (List.take (max (max segs.flatten.length 1) (g (skipNul g s').calls))
      (segs.flatten ++ rest)) = segs.flatten := by
    rw [List.take_take, Nat.min_eq_left (by omega), List.take_left]
  have hd0 : o.dataPath ≠ [] := fun e => diverge_nil (by have := h.apart; rw [e] at this; exact this)
  rw [htake, readBack_without, without_set (readBack_wf ff fo _ v1 h2) hd0 hr1]
  simp [release, hskip]

/-- C45, finding: an empty payload is not there any more after reading. -/
theorem payload_empty_lost {num num' : Bytes → Option UInt64} {ff : FloatFmt} {fo : FloatOps} (hl : FloatLaw ff fo)
    {c : Cfg} {w : Nat → Nat} {o : Opts} {m m' : Mach} {v : Val} {segs : List Bytes} (h : Sound v o segs)
    (hb : m.buf = []) (hw : ∀ i, 32 ≤ w i) (hn : o.payloadLength = none)
    (hemp : segs.flatten = []) (hs : serializeTo num ff c w o m v = .ok m') :
    ∃ v1 bytes, setPath v o.lengthPath (.uint 0) = (v1, none) ∧ m'.out = m.out ++ bytes ∧
      ∀ (g : Nat → Nat) (calls : Nat) (rest : Bytes),
        (fun r => (r.1, r.2.rem)) <$> deserializeFrom num' fo g o ⟨bytes ++ rest, calls⟩ =
          .ok (readBack ff fo c.precision (without v1 o.dataPath), rest) := by
  obtain ⟨v1, bytes, h1, h2, h3, h4, h5, h6⟩ := header_round hl h hb hw hn hs
  rw [hemp] at h1 h4
  refine ⟨v1, bytes, h1, h5, ?_⟩
  intro g calls rest
  obtain ⟨s', k1, hskip⟩ := h6 g calls rest
  have hpb : payloadBytes v o = [] := by simp [payloadBytes, h.payload, hemp]
  rw [hpb] at hskip
  unfold deserializeFrom
  rw [k1]
  simp only [Out.bind_ok]
  have hgp : getPathDef (readBack ff fo c.precision (without v1 o.dataPath)) o.lengthPath (.uint 0) = .uint 0 := by
    unfold getPathDef
    rw [getPath?_readBack, h4]
    rfl
  rw [hgp]
  have hau : asUnsigned num' (.uint 0) = .ok 0 := rfl
  rw [hau]
  simp [hskip]

end Verif.Payload
