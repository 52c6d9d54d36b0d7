import Verif.Ext.Flatten
import Verif.Ext.UpdateProps
import Verif.Val.PathProps
import Verif.Path.Props
/-!
# C43: flatten, then expand
-/

namespace Verif.Flat
open Verif Verif.Ext

/-! ## The leaves of a value -/

/-- What flattening keeps whole. -/
def atom (ps : FlatParams) : Val → Bool
  | .list xs => !ps.noSimpleLists && simpleList xs
  | .map _ => false
  | _ => true

/-- The value has the leaf `x` at the path. -/
inductive LeafAt (ps : FlatParams) : Val → VPath → Val → Prop
  | here {v} : atom ps v = true → LeafAt ps v [] v
  | deep {v e c q x} : atom ps v = false → getElem? v e = some c → LeafAt ps c q x → LeafAt ps v (e :: q) x

theorem LeafAt.get {ps : FlatParams} {v x : Val} {q : VPath} (h : LeafAt ps v q x) : getPath? v q = some x := by
  induction h with
  | here => rfl
  | deep _ h1 _ ih => rw [getPath?_cons, h1]; exact ih

theorem LeafAt.diverge {ps : FlatParams} {v x x' : Val} {q q' : VPath} (h : LeafAt ps v q x)
    (h' : LeafAt ps v q' x') : q = q' ∨ Diverge q q' := by
  induction h generalizing q' x' with
  | here ha =>
    cases h' with
    | here => exact .inl rfl
    | deep hb => rw [ha] at hb; cases hb
  | @deep v e c q x ha hc _ ih =>
    cases h' with
    | here hb => rw [ha] at hb; cases hb
    | @deep _ e' c' q' _ _ hc' h2 =>
      by_cases he : e = e'
      · subst he
        rw [hc] at hc'; cases hc'
        rcases ih h2 with rfl | hd
        · exact .inl rfl
        · exact .inr ⟨fun h => hd.1 (by simpa using h), fun h => hd.2 (by simpa using h)⟩
      · exact .inr ⟨fun h => he (List.cons_prefix_cons.mp h).1, fun h => he (List.cons_prefix_cons.mp h).1.symm⟩

/-- The leaves in the order of flattening. -/
def leaves (ps : FlatParams) : Val → List (VPath × Val)
  | .list xs => if !ps.noSimpleLists && simpleList xs then [([], .list xs)] else leavesList ps 0 xs
  | .map m => leavesMap ps m
  | v => [([], v)]
where
  leavesList (ps : FlatParams) (i : Nat) : List Val → List (VPath × Val)
    | [] => []
    | x :: r => (leaves ps x).map (fun y => (.index (UInt32.ofNat i) :: y.1, y.2)) ++ leavesList ps (i + 1) r
  leavesMap (ps : FlatParams) : List (Bytes × Val) → List (VPath × Val)
    | [] => []
    | x :: r => (leaves ps x.2).map (fun y => (.key x.1 :: y.1, y.2)) ++ leavesMap ps r

/-! ## Texts -/

/-- The text of a path below a prefix that is not empty. -/
def below (ps : FlatParams) : VPath → Bytes
  | [] => []
  | .key k :: q => ps.pathDelimiter ++ k ++ below ps q
  | .index i :: q => ps.indexPrefix ++ natDec i.toNat ++ ps.indexSuffix ++ below ps q

/-- The text of a path that starts with a key. -/
def flatText (ps : FlatParams) : VPath → Bytes
  | .key k :: q => ps.pathPrefix ++ k ++ below ps q
  | _ => []

/-- Null or a map: what flattening can store into. -/
def Fillable (v : Val) : Prop := v.ty = .null ∨ v.ty = .map

/-- Store one entry. -/
def put (f : Val) (x : Bytes × Val) : Val :=
  match f with
  | .map m => .map (AMap.set m x.1 x.2)
  | _ => .map [x]

/-- Entries stored one after another. -/
def putAll (f : Val) : List (Bytes × Val) → Val
  | [] => f
  | x :: r => putAll (put f x) r

theorem put_fillable (f : Val) (x : Bytes × Val) : Fillable (put f x) := by
  cases f <;> exact .inr rfl

theorem putAll_fillable {f : Val} (h : Fillable f) (L : List (Bytes × Val)) : Fillable (putAll f L) := by
  induction L generalizing f with
  | nil => exact h
  | cons x L ih => exact ih (put_fillable f x)

theorem putAll_append (f : Val) (a b : List (Bytes × Val)) : putAll f (a ++ b) = putAll (putAll f a) b := by
  induction a generalizing f with
  | nil => rfl
  | cons x a ih => exact ih _

/-! ## Flattening stores the leaves -/

def entries (ps : FlatParams) (pre : Bytes) (L : List (VPath × Val)) : List (Bytes × Val) :=
  L.map fun y => (pre ++ below ps y.1, deepCopy y.2)

theorem entries_index {ps : FlatParams} {pre : Bytes} {i : Nat} (hi : i < 2 ^ 32) (L : List (VPath × Val)) :
    entries ps pre (L.map (fun y => (.index (UInt32.ofNat i) :: y.1, y.2))) = entries ps (indexText ps pre i) L := by
  have e : (UInt32.ofNat i).toNat = i := by simp; omega
  simp only [entries, List.map_map]
  refine List.map_congr_left fun y _ => ?_
  simp only [Function.comp, below, indexText, e, List.append_assoc]

theorem entries_key {ps : FlatParams} {pre : Bytes} (hp : pre ≠ []) (k : Bytes) (L : List (VPath × Val)) :
    entries ps pre (L.map (fun y => (.key k :: y.1, y.2))) = entries ps (keyText ps pre k) L := by
  simp only [entries, List.map_map]
  refine List.map_congr_left fun y _ => ?_
  simp only [Function.comp, below, keyText, hp, ne_eq, not_false_eq_true, if_true, List.append_assoc]

theorem entries_append (ps : FlatParams) (pre : Bytes) (a b : List (VPath × Val)) :
    entries ps pre (a ++ b) = entries ps pre a ++ entries ps pre b := List.map_append

theorem putFlat_eq {f : Val} (hf : Fillable f) {pre : Bytes} (hp : pre ≠ []) (v : Val) :
    putFlat f pre v = (put f (pre, deepCopy v), none) := by
  simp only [putFlat, hp, ne_eq, not_false_eq_true, if_true]
  cases f <;> first | rfl | rcases hf with h | h <;> cases h

theorem indexText_ne {ps : FlatParams} {pre : Bytes} (hp : pre ≠ []) (i : Nat) : indexText ps pre i ≠ [] := by
  simp [indexText, hp]

theorem keyText_ne {ps : FlatParams} {pre : Bytes} (hp : pre ≠ []) (k : Bytes) : keyText ps pre k ≠ [] := by
  simp [keyText, hp]

theorem fit_item {xs : List Val} (h : ListsFit (.list xs)) : ∀ x ∈ xs, ListsFit x := by
  intro x hx
  obtain ⟨i, hi⟩ := List.getElem?_of_mem hx
  exact h.child (e := .index (UInt32.ofNat i)) (by rw [getElem?_ofNat (item_lt h hi)]; exact hi)

theorem fit_member {m : List (Bytes × Val)} (hw : (Val.map m).WF) (h : ListsFit (.map m)) : ∀ x ∈ m, ListsFit x.2 := by
  intro x hx
  exact h.child (e := .key x.1) (AMap.get_of_mem (wf_sorted hw) hx)

mutual
theorem flattenTo_eq (ps : FlatParams) (f : Val) (hfl : Fillable f) (pre : Bytes) (hp : pre ≠ []) :
    (v : Val) → v.WF → ListsFit v → flattenTo ps f pre v = (putAll f (entries ps pre (leaves ps v)), none)
  | .list xs, hw, hf => by
    simp only [flattenTo, leaves]
    split
    · rw [putFlat_eq hfl hp]; simp [entries, putAll, below]
    · exact flattenList_eq ps f hfl pre hp 0 xs (fun x hx => by
        obtain ⟨i, hi⟩ := List.getElem?_of_mem hx
        exact list_wf_mem hw hi) (fit_item hf) (by have := hf.here xs rfl; omega)
  | .map m, hw, hf => by
    simp only [flattenTo, leaves]
    exact flattenMap_eq ps f hfl pre hp m (fun x hx => map_wf_get hw (AMap.get_of_mem (wf_sorted hw) hx))
      (fit_member hw hf)
  | .null, _, _ | .bool _, _, _ | .int _, _, _ | .uint _, _, _ | .flt _, _, _ | .str _, _, _ | .blob _, _, _ => by
    simp only [flattenTo, leaves, putFlat_eq hfl hp, entries, putAll, below, List.map_cons, List.map_nil, List.append_nil]
theorem flattenList_eq (ps : FlatParams) (f : Val) (hfl : Fillable f) (pre : Bytes) (hp : pre ≠ []) (i : Nat) :
    (xs : List Val) → (∀ x ∈ xs, x.WF) → (∀ x ∈ xs, ListsFit x) → i + xs.length ≤ 2 ^ 32 →
      flattenTo.flattenList ps f pre i xs = (putAll f (entries ps pre (leaves.leavesList ps i xs)), none)
  | [], _, _, _ => rfl
  | x :: xs, hw, hf, hl => by
    simp only [List.length_cons] at hl
    have h1 := flattenTo_eq ps f hfl (indexText ps pre i) (indexText_ne hp i) x (hw x (by simp)) (hf x (by simp))
    have h2 := fun f hfl => flattenList_eq ps f hfl pre hp (i + 1) xs (fun y hy => hw y (by simp [hy]))
      (fun y hy => hf y (by simp [hy])) (by omega)
    simp only [flattenTo.flattenList, h1, h2 _ (putAll_fillable hfl _), leaves.leavesList]
    rw [entries_append, putAll_append, entries_index (by omega)]
theorem flattenMap_eq (ps : FlatParams) (f : Val) (hfl : Fillable f) (pre : Bytes) (hp : pre ≠ []) :
    (m : List (Bytes × Val)) → (∀ x ∈ m, x.2.WF) → (∀ x ∈ m, ListsFit x.2) →
      flattenTo.flattenMap ps f pre m = (putAll f (entries ps pre (leaves.leavesMap ps m)), none)
  | [], _, _ => rfl
  | x :: m, hw, hf => by
    have h1 := flattenTo_eq ps f hfl (keyText ps pre x.1) (keyText_ne hp x.1) x.2 (hw x (by simp)) (hf x (by simp))
    have h2 := fun f hfl => flattenMap_eq ps f hfl pre hp m (fun y hy => hw y (by simp [hy]))
      (fun y hy => hf y (by simp [hy]))
    simp only [flattenTo.flattenMap, h1, h2 _ (putAll_fillable hfl _), leaves.leavesMap]
    rw [entries_append, putAll_append, entries_key hp]
end

/-- At the top the prefix is empty and every key starts one. -/
theorem flattenMap_top (ps : FlatParams) (f : Val) (hfl : Fillable f) :
    (m : List (Bytes × Val)) → (∀ x ∈ m, x.2.WF) → (∀ x ∈ m, ListsFit x.2) → (∀ x ∈ m, x.1 ≠ []) →
      flattenTo.flattenMap ps f [] m =
        (putAll f ((leaves.leavesMap ps m).map fun y => (flatText ps y.1, deepCopy y.2)), none)
  | [], _, _, _ => rfl
  | x :: m, hw, hf, hk => by
    have hne : keyText ps [] x.1 ≠ [] := by simp [keyText, hk x (by simp)]
    have h1 := flattenTo_eq ps f hfl (keyText ps [] x.1) hne x.2 (hw x (by simp)) (hf x (by simp))
    have h2 := fun f hfl => flattenMap_top ps f hfl m (fun y hy => hw y (by simp [hy]))
      (fun y hy => hf y (by simp [hy])) (fun y hy => hk y (by simp [hy]))
    simp only [flattenTo.flattenMap, h1, h2 _ (putAll_fillable hfl _), leaves.leavesMap]
    rw [List.map_append, putAll_append]
    congr 2
    simp only [entries, List.map_map]
    congr 1

theorem flattenPath_eq (ps : FlatParams) (m : List (Bytes × Val)) (hw : (Val.map m).WF) (hf : ListsFit (.map m))
    (hk : ∀ x ∈ m, x.1 ≠ []) :
    flattenPath ps (.map m) =
      (putAll .null ((leaves ps (.map m)).map fun y => (flatText ps y.1, deepCopy y.2)), none) := by
  simp only [flattenPath, flattenTo, leaves]
  exact flattenMap_top ps .null (.inl rfl) m (fun x hx => map_wf_get hw (AMap.get_of_mem (wf_sorted hw) hx))
    (fit_member hw hf) hk

/-! ## The leaves are the leaves -/

mutual
theorem mem_leaves (ps : FlatParams) : (v : Val) → v.WF → ListsFit v → ∀ q x, (q, x) ∈ leaves ps v ↔ LeafAt ps v q x
  | .list xs, hw, hf, q, x => by
    simp only [leaves]
    split
    · rename_i ha
      simp only [List.mem_singleton, Prod.mk.injEq]
      constructor
      · rintro ⟨rfl, rfl⟩; exact .here ha
      · intro h
        cases h with
        | here => exact ⟨rfl, rfl⟩
        | deep hb => rw [show atom ps (.list xs) = true from ha] at hb; cases hb
    · rename_i ha
      have ha : atom ps (.list xs) = false := by simpa [atom] using ha
      rw [mem_leavesList ps xs (fun x hx => by
        obtain ⟨i, hi⟩ := List.getElem?_of_mem hx
        exact list_wf_mem hw hi) (fit_item hf) 0 q x]
      constructor
      · rintro ⟨j, q', c, rfl, hc, hl⟩
        rw [Nat.zero_add]
        exact .deep ha (by rw [getElem?_ofNat (item_lt hf hc)]; exact hc) hl
      · intro h
        cases h with
        | here hb => rw [ha] at hb; cases hb
        | @deep _ e c q' _ _ hc hl =>
          cases e with
          | key k => cases hc
          | index i => exact ⟨i.toNat, q', c, by simp, hc, hl⟩
  | .map m, hw, hf, q, x => by
    simp only [leaves]
    rw [mem_leavesMap ps m (fun x hx => map_wf_get hw (AMap.get_of_mem (wf_sorted hw) hx)) (fit_member hw hf) q x]
    constructor
    · rintro ⟨k, q', c, rfl, hc, hl⟩
      exact .deep rfl (AMap.get_of_mem (wf_sorted hw) hc) hl
    · intro h
      cases h with
      | here hb => cases hb
      | @deep _ e c q' _ _ hc hl =>
        cases e with
        | key k => exact ⟨k, q', c, rfl, AMap.get_mem hc, hl⟩
        | index i => cases hc
  | .null, _, _, q, x | .bool _, _, _, q, x | .int _, _, _, q, x | .uint _, _, _, q, x | .flt _, _, _, q, x
  | .str _, _, _, q, x | .blob _, _, _, q, x => by
    simp only [leaves, List.mem_singleton, Prod.mk.injEq]
    constructor
    · rintro ⟨rfl, rfl⟩; exact .here rfl
    · intro h
      cases h with
      | here => exact ⟨rfl, rfl⟩
      | deep hb => cases hb
theorem mem_leavesList (ps : FlatParams) : (xs : List Val) → (∀ x ∈ xs, x.WF) → (∀ x ∈ xs, ListsFit x) → ∀ i q x,
    (q, x) ∈ leaves.leavesList ps i xs ↔
      ∃ j q' c, q = .index (UInt32.ofNat (i + j)) :: q' ∧ xs[j]? = some c ∧ LeafAt ps c q' x
  | [], _, _, i, q, x => by simp [leaves.leavesList]
  | a :: xs, hw, hf, i, q, x => by
    simp only [leaves.leavesList, List.mem_append, List.mem_map, Prod.mk.injEq]
    rw [mem_leavesList ps xs (fun y hy => hw y (by simp [hy])) (fun y hy => hf y (by simp [hy])) (i + 1) q x]
    constructor
    · rintro (⟨⟨q', y⟩, hm, rfl, rfl⟩ | ⟨j, q', c, rfl, hc, hl⟩)
      · exact ⟨0, q', a, rfl, rfl, (mem_leaves ps a (hw a (by simp)) (hf a (by simp)) q' y).mp hm⟩
      · exact ⟨j + 1, q', c, by rw [Nat.add_assoc, Nat.add_comm 1 j], by simpa using hc, hl⟩
    · rintro ⟨j, q', c, rfl, hc, hl⟩
      cases j with
      | zero =>
        simp only [List.getElem?_cons_zero, Option.some.injEq] at hc
        subst hc
        exact .inl ⟨(q', x), (mem_leaves ps a (hw a (by simp)) (hf a (by simp)) q' x).mpr hl, rfl, rfl⟩
      | succ j => exact .inr ⟨j, q', c, by rw [Nat.add_assoc, Nat.add_comm 1 j], by simpa using hc, hl⟩
theorem mem_leavesMap (ps : FlatParams) : (m : List (Bytes × Val)) → (∀ x ∈ m, x.2.WF) → (∀ x ∈ m, ListsFit x.2) →
    ∀ q x, (q, x) ∈ leaves.leavesMap ps m ↔ ∃ k q' c, q = .key k :: q' ∧ (k, c) ∈ m ∧ LeafAt ps c q' x
  | [], _, _, q, x => by simp [leaves.leavesMap]
  | a :: m, hw, hf, q, x => by
    simp only [leaves.leavesMap, List.mem_append, List.mem_map, Prod.mk.injEq]
    rw [mem_leavesMap ps m (fun y hy => hw y (by simp [hy])) (fun y hy => hf y (by simp [hy])) q x]
    constructor
    · rintro (⟨⟨q', y⟩, hm, rfl, rfl⟩ | ⟨k, q', c, rfl, hc, hl⟩)
      · exact ⟨a.1, q', a.2, rfl, by simp, (mem_leaves ps a.2 (hw a (by simp)) (hf a (by simp)) q' y).mp hm⟩
      · exact ⟨k, q', c, rfl, by simp [hc], hl⟩
    · rintro ⟨k, q', c, rfl, hc, hl⟩
      rcases List.mem_cons.mp hc with rfl | hc
      · exact .inl ⟨(q', x), (mem_leaves ps c (hw (k, c) (by simp)) (hf (k, c) (by simp)) q' x).mpr hl, rfl, rfl⟩
      · exact .inr ⟨k, q', c, rfl, hc, hl⟩
end

end Verif.Flat
