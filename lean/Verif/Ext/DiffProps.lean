import Verif.Ext.PatchProps
import Verif.Val.CompareProps
/-!
# C41: applying a diff
-/

namespace Verif.Ext
open Verif

/-! ## The keys -/

theorem mem_insertKey {k x : Bytes} {ks : List Bytes} : x ∈ insertKey k ks ↔ x = k ∨ x ∈ ks := by
  induction ks with
  | nil => simp [insertKey]
  | cons a ks ih =>
    simp only [insertKey]
    split
    · rename_i h; subst h; simp
    · split
      · simp
      · simp only [List.mem_cons, ih]
        constructor <;> (rintro (h | h | h) <;> simp [h])

theorem mem_unionKeys {x : Bytes} {ks r : List Bytes} : x ∈ unionKeys ks r ↔ x ∈ ks ∨ x ∈ r := by
  induction r generalizing ks with
  | nil => simp [unionKeys]
  | cons a r ih =>
    simp only [unionKeys, ih, mem_insertKey, List.mem_cons]
    constructor
    · rintro ((h | h) | h) <;> simp [h]
    · rintro (h | h | h) <;> simp [h]

def Increasing : List Bytes → Prop
  | [] => True
  | k :: ks => (∀ x ∈ ks, keyLt k x = true) ∧ Increasing ks

theorem increasing_insertKey {k : Bytes} {ks : List Bytes} (h : Increasing ks) : Increasing (insertKey k ks) := by
  induction ks with
  | nil => exact ⟨by simp, trivial⟩
  | cons a ks ih =>
    simp only [insertKey]
    split
    · exact h
    · rename_i hne
      split
      · rename_i hlt
        refine ⟨fun x hx => ?_, h⟩
        rcases List.mem_cons.mp hx with rfl | hx
        · exact hlt
        · exact keyLt_trans hlt (h.1 x hx)
      · rename_i hlt
        refine ⟨fun x hx => ?_, ih h.2⟩
        rcases mem_insertKey.mp hx with rfl | hx
        · rcases keyLt_trichotomy x a with h1 | h1 | h1
          · exact absurd h1 hlt
          · exact absurd h1 hne
          · exact h1
        · exact h.1 x hx

theorem increasing_unionKeys {ks r : List Bytes} (h : Increasing ks) : Increasing (unionKeys ks r) := by
  induction r generalizing ks with
  | nil => exact h
  | cons a r ih => exact ih (increasing_insertKey h)

theorem Increasing.nodup {ks : List Bytes} (h : Increasing ks) : ks.Nodup := by
  induction ks with
  | nil => exact List.nodup_nil
  | cons a ks ih =>
    refine List.nodup_cons.mpr ⟨fun hm => ?_, ih h.2⟩
    have := h.1 a hm
    rw [keyLt_irrefl] at this; cases this

theorem get_isSome_iff {m : List (Bytes × Val)} {k : Bytes} : (∃ c, AMap.get m k = some c) ↔ k ∈ m.map (·.1) := by
  induction m with
  | nil => simp [AMap.get]
  | cons a m ih =>
    obtain ⟨k', v⟩ := a
    simp only [AMap.get, List.map_cons, List.mem_cons]
    split
    · rename_i h; subst h; simp
    · rename_i h
      rw [ih]
      constructor
      · exact .inr
      · rintro (rfl | h')
        · exact absurd rfl h
        · exact h'

/-! ## Equality of containers -/

/-- Absent in both, or equal. -/
def EqOpt (p : Nat) : Option Val → Option Val → Prop
  | none, none => True
  | some a, some b => veq p a b = true
  | _, _ => False

theorem eqMap_of_get {p : Nat} {a b : List (Bytes × Val)} (ha : AMap.Sorted a) (hb : AMap.Sorted b)
    (h : ∀ k, EqOpt p (AMap.get a k) (AMap.get b k)) : eqMap p a b = true := by
  induction a generalizing b with
  | nil =>
    cases b with
    | nil => simp [eqMap]
    | cons q r => have := h q.1; simp [AMap.get, EqOpt] at this
  | cons x a ih =>
    obtain ⟨k, v⟩ := x
    cases b with
    | nil => have := h k; simp [AMap.get, EqOpt] at this
    | cons y b =>
      obtain ⟨k', w⟩ := y
      have hk : k = k' := by
        rcases keyLt_trichotomy k k' with hlt | he | hlt
        · have := h k
          simp only [AMap.get, if_true] at this
          rw [if_neg (Ne.symm (keyLt_ne hlt)), AMap.get_none_of_above] at this
          · exact this.elim
          · intro x hx; exact keyLt_trans hlt (hb.1 x hx)
        · exact he
        · have := h k'
          simp only [AMap.get, if_true] at this
          rw [if_neg (Ne.symm (keyLt_ne hlt)), AMap.get_none_of_above] at this
          · exact this.elim
          · intro x hx; exact keyLt_trans hlt (ha.1 x hx)
      subst hk
      have hv : veq p v w = true := by
        have := h k
        simp only [AMap.get, if_true] at this
        exact this
      have hr : eqMap p a b = true := by
        refine ih ha.2 hb.2 fun j => ?_
        have hj := h j
        simp only [AMap.get] at hj
        by_cases hjk : k = j
        · subst hjk
          rw [AMap.get_none_of_above ha.1, AMap.get_none_of_above hb.1]
          trivial
        · rwa [if_neg hjk, if_neg hjk] at hj
      simp only [veq] at hv
      simp [eqMap, hv, hr]

theorem eqList_of_get {p : Nat} {a b : List Val} (hl : a.length = b.length)
    (h : ∀ (i : Nat) x y, a[i]? = some x → b[i]? = some y → veq p x y = true) : eqList p a b = true := by
  induction a generalizing b with
  | nil =>
    cases b with
    | nil => simp [eqList]
    | cons _ _ => simp at hl
  | cons x a ih =>
    cases b with
    | nil => simp at hl
    | cons y b =>
      have h0 := h 0 x y rfl rfl
      simp only [veq] at h0
      have := ih (by simpa using hl) fun i x y h1 h2 => h (i + 1) x y (by simpa using h1) (by simpa using h2)
      simp [eqList, h0, this]

theorem veq_list {p : Nat} {a b : List Val} (h : eqList p a b = true) : veq p (.list a) (.list b) = true := by
  simp [veq, cmp, h]

theorem veq_map {p : Nat} {a b : List (Bytes × Val)} (h : eqMap p a b = true) : veq p (.map a) (.map b) = true := by
  simp [veq, cmp, h]

/-! ## Running operations -/

def Runs (p : Nat) (flt : UInt64 → Bytes) (v : Val) (ds : List Val) (v' : Val) : Prop :=
  ∀ us, ∃ us', patchLoop p flt v us ds = (v', us', .ok true)

theorem Runs.nil {p : Nat} {flt : UInt64 → Bytes} {v : Val} : Runs p flt v [] v := fun us => ⟨us, rfl⟩

theorem Runs.one {p : Nat} {flt : UInt64 → Bytes} {v v' d : Val} {us : List Undo}
    (h : patchOp p flt v d = (v', us, .ok true)) : Runs p flt v [d] v' :=
  fun us' => ⟨us.reverse ++ us', by simp only [patchLoop, h]⟩

theorem Runs.append {p : Nat} {flt : UInt64 → Bytes} {v v1 v' : Val} {a b : List Val} (h1 : Runs p flt v a v1)
    (h2 : Runs p flt v1 b v') : Runs p flt v (a ++ b) v' := by
  induction a generalizing v with
  | nil =>
    obtain ⟨us', h⟩ := h1 []
    cases h
    exact h2
  | cons d ds ih =>
    intro us
    rcases he : patchOp p flt v d with ⟨v2, us2, o⟩
    have : o = .ok true := by
      obtain ⟨us', h⟩ := h1 us
      simp only [patchLoop, he] at h
      cases o with
      | throw e => cases h
      | ub => cases h
      | ok b => cases b with
        | true => rfl
        | false => cases h
    subst this
    have hd : Runs p flt v2 ds v1 := by
      intro us3
      obtain ⟨us', h⟩ := h1 []
      simp only [patchLoop, he] at h
      exact runs_any h us3
    obtain ⟨us', h⟩ := ih hd (us2.reverse ++ us)
    exact ⟨us', by simp only [List.cons_append, patchLoop, he, h]⟩
where
  runs_any {p : Nat} {flt : UInt64 → Bytes} {v v' : Val} {us us' : List Undo} {ds : List Val}
      (h : patchLoop p flt v us ds = (v', us', .ok true)) (us2 : List Undo) :
      ∃ us3, patchLoop p flt v us2 ds = (v', us3, .ok true) := by
    induction ds generalizing v us us2 with
    | nil => cases h; exact ⟨us2, rfl⟩
    | cons d ds ih =>
      simp only [patchLoop] at h ⊢
      rcases he : patchOp p flt v d with ⟨v1, us1, o⟩
      rw [he] at h
      cases o with
      | throw e => cases h
      | ub => cases h
      | ok b => cases b with
        | false => cases h
        | true => exact ih h _

def Plain (k : Bytes) : Prop := ∀ c ∈ k, c ≠ 0x2f ∧ c ≠ 0x7e

def PlainPath (q : VPath) : Prop := ∀ k, .key k ∈ q → Plain k

theorem pointerOp_form {p : Nat} {v : Val} {op : POp} {q : VPath} (h : PlainPath q) :
    pointerOp p v op (formPointer q) = opTokens p v op (q.map pathToken) := by
  simp only [pointerOp, components_formPointer q h]

theorem run_replace {p : Nat} {flt : UInt64 → Bytes} {v s : Val} {q : VPath} (hw : v.WF) (hp : PlainPath q)
    (h : getPath? v q = some s) (x : Val) : Runs p flt v [opReplace q x] (storeAt v q x) := by
  have e : patchOp p flt v (opReplace q x) = replaceOp p v (formPointer q) (.ok x) := rfl
  simp only [replaceOp, pointerOp_form hp, (opTokens_get p hw _).2 q s (walk_pathToken h) h, reading,
    setPath_existing h, ofWr] at e
  exact Runs.one e

theorem opTokens_below {p : Nat} {v c : Val} {op : POp} {q : VPath} (hw : v.WF) (h : getPath? v q = some c) (t : Bytes) :
    opTokens p v op (q.map pathToken ++ [t]) = (storeAt v q (opLast p c t op).1, addPath q <$> (opLast p c t op).2) :=
  (opTokens_walk p op t hw).2 q c (walk_pathToken h) h

theorem run_add_member {p : Nat} {flt : UInt64 → Bytes} {v : Val} {m : List (Bytes × Val)} {q : VPath} {k : Bytes}
    (hw : v.WF) (hp : PlainPath (q ++ [.key k])) (h : getPath? v q = some (.map m)) (x : Val) :
    Runs p flt v [opAdd (q ++ [.key k]) x] (storeAt v q (.map (AMap.set m k x))) := by
  have e : patchOp p flt v (opAdd (q ++ [.key k]) x) = addOp p v (formPointer (q ++ [.key k])) x := rfl
  have e2 : (q ++ [PathElem.key k]).map pathToken = q.map pathToken ++ [k] := by simp [pathToken]
  simp only [addOp, pointerOp_form hp, e2, opTokens_below hw h, opLast, opMap] at e
  exact Runs.one e

theorem run_remove_member {p : Nat} {flt : UInt64 → Bytes} {v c : Val} {m : List (Bytes × Val)} {q : VPath} {k : Bytes}
    (hw : v.WF) (hp : PlainPath (q ++ [.key k])) (h : getPath? v q = some (.map m)) (hk : AMap.get m k = some c) :
    Runs p flt v [opRemove (q ++ [.key k])] (storeAt v q (.map (AMap.erase m k))) := by
  have e : patchOp p flt v (opRemove (q ++ [.key k])) = removeOp p v (formPointer (q ++ [.key k])) := rfl
  have e2 : (q ++ [PathElem.key k]).map pathToken = q.map pathToken ++ [k] := by simp [pathToken]
  simp only [removeOp, pointerOp_form hp, e2, opTokens_below hw h, opLast, opMap, hk] at e
  exact Runs.one e

theorem run_append {p : Nat} {flt : UInt64 → Bytes} {v : Val} {xs : List Val} {q : VPath}
    (hw : v.WF) (hp : PlainPath q) (hl : xs.length < 2 ^ 32) (h : getPath? v q = some (.list xs)) (x : Val) :
    Runs p flt v [opAdd (q ++ [.index (UInt32.ofNat xs.length)]) x] (storeAt v q (.list (xs ++ [x]))) := by
  have e : patchOp p flt v (opAdd (q ++ [.index (UInt32.ofNat xs.length)]) x) =
    addOp p v (formPointer (q ++ [.index (UInt32.ofNat xs.length)])) x := rfl
  have hp' : PlainPath (q ++ [.index (UInt32.ofNat xs.length)]) := by
    intro k hk
    simp only [List.mem_append, List.mem_singleton, reduceCtorEq, or_false] at hk
    exact hp k hk
  have e2 : (q ++ [PathElem.index (UInt32.ofNat xs.length)]).map pathToken = q.map pathToken ++ [natDec xs.length] := by
    simp only [List.map_append, List.map_cons, List.map_nil, pathToken, ofNat_toNat hl]
  simp only [addOp, pointerOp_form hp', e2, opTokens_below hw h, opLast, opList, if_neg (natDec_ne_dash _),
    isIndex_natDec (show xs.length < 2 ^ 64 by omega), opIndex, Nat.le_refl, if_true, List.take_length,
    List.drop_length] at e
  exact Runs.one e

/-! ## The diff -/

theorem diffRef_ty {p fuel : Nat} {s d : Val} {path : VPath} (h : s.ty ≠ d.ty) :
    diffRef p (fuel + 1) (some s) (some d) path = [opReplace path d] := by
  simp [diffRef, h]

theorem diffRef_eq {p fuel : Nat} {s d : Val} {path : VPath} (h : s.ty = d.ty) (he : veq p s d = true) :
    diffRef p (fuel + 1) (some s) (some d) path = [] := by
  simp [diffRef, h, he]

theorem diffRef_leaf {p fuel : Nat} {s d : Val} {path : VPath} (h : s.ty = d.ty) (he : veq p s d = false)
    (h1 : s.ty ≠ .list) (h2 : s.ty ≠ .map) :
    diffRef p (fuel + 1) (some s) (some d) path = [opReplace path d] := by
  simp only [diffRef, h, ne_eq, not_true_eq_false, if_false, he, Bool.false_eq_true]
  split
  · exact absurd rfl h1
  · exact absurd rfl h2
  · rfl

theorem diffRef_list {p fuel : Nat} {xs ys : List Val} {path : VPath} (he : veq p (.list xs) (.list ys) = false) :
    diffRef p (fuel + 1) (some (.list xs)) (some (.list ys)) path =
      (List.range (max xs.length ys.length)).flatMap fun i =>
        diffRef p fuel xs[i]? ys[i]? (path ++ [.index (UInt32.ofNat i)]) := by
  simp [diffRef, Val.ty, he]

theorem diffRef_map {p fuel : Nat} {m n : List (Bytes × Val)} {path : VPath} (he : veq p (.map m) (.map n) = false) :
    diffRef p (fuel + 1) (some (.map m)) (some (.map n)) path =
      (unionKeys (unionKeys [] (n.map (·.1))) (m.map (·.1))).flatMap fun k =>
        diffRef p fuel (AMap.get m k) (AMap.get n k) (path ++ [.key k]) := by
  simp [diffRef, Val.ty, he]

theorem depth_item {xs : List Val} {i : Nat} {x : Val} (h : xs[i]? = some x) : depth x ≤ depth.depthList xs := by
  induction xs generalizing i with
  | nil => simp at h
  | cons a xs ih =>
    simp only [depth.depthList]
    cases i with
    | zero => simp at h; subst h; omega
    | succ i => have := ih (i := i) (by simpa using h); omega

theorem depth_member {m : List (Bytes × Val)} {k : Bytes} {x : Val} (h : AMap.get m k = some x) :
    depth x ≤ depth.depthMap m := by
  induction m with
  | nil => cases h
  | cons a m ih =>
    obtain ⟨k', v⟩ := a
    simp only [depth.depthMap]
    simp only [AMap.get] at h
    split at h
    · cases h; omega
    · have := ih h; omega

/-- No key at any level contains a slash or a tilde. -/
def PlainKeys (v : Val) : Prop := ∀ q c, getPath? v q = some c → PlainPath q

theorem PlainKeys.child {v c : Val} {e : PathElem} (h : PlainKeys v) (hc : getElem? v e = some c) : PlainKeys c := by
  intro q d hd k hk
  exact h (e :: q) d (by rw [getPath?_cons, hc]; exact hd) k (by simp [hk])

theorem PlainKeys.key {v c : Val} {k : Bytes} (h : PlainKeys v) (hc : getElem? v (.key k) = some c) : Plain k :=
  h [.key k] c (by rw [getPath?_cons, hc]; rfl) k (by simp)

/-- Where both documents have a list at the same place, the second is not shorter. -/
def NoShrink (s d : Val) : Prop :=
  ∀ q xs ys, getPath? s q = some (.list xs) → getPath? d q = some (.list ys) → xs.length ≤ ys.length

theorem NoShrink.child {s d a b : Val} {e : PathElem} (h : NoShrink s d) (ha : getElem? s e = some a)
    (hb : getElem? d e = some b) : NoShrink a b := by
  intro q xs ys h1 h2
  exact h (e :: q) xs ys (by rw [getPath?_cons, ha]; exact h1) (by rw [getPath?_cons, hb]; exact h2)

theorem PlainPath.snoc_key {q : VPath} {k : Bytes} (h : PlainPath q) (hk : Plain k) : PlainPath (q ++ [.key k]) := by
  intro k' hk'
  simp only [List.mem_append, List.mem_singleton, PathElem.key.injEq] at hk'
  rcases hk' with hk' | rfl
  · exact h k' hk'
  · exact hk

theorem PlainPath.snoc_index {q : VPath} {i : UInt32} (h : PlainPath q) : PlainPath (q ++ [.index i]) := by
  intro k' hk'
  simp only [List.mem_append, List.mem_singleton, reduceCtorEq, or_false] at hk'
  exact h k' hk'

/-- What the diff of two values is good for, at any place. -/
def DiffGood (p : Nat) (flt : UInt64 → Bytes) (fuel : Nat) (s d : Val) : Prop :=
  ∀ v path, v.WF → getPath? v path = some s → PlainPath path →
    ∃ r, Runs p flt v (diffRef p fuel (some s) (some d) path) (storeAt v path r) ∧ veq p r d = true ∧ r.WF

theorem list_wf_mem {xs : List Val} (h : (Val.list xs).WF) {i : Nat} {x : Val} (hx : xs[i]? = some x) : x.WF := by
  simp only [Val.WF, WFList_iff] at h
  exact h x (List.mem_of_getElem? hx)

theorem list_wf_of {xs : List Val} (h : ∀ (i : Nat) x, xs[i]? = some x → x.WF) : (Val.list xs).WF := by
  simp only [Val.WF, WFList_iff]
  intro x hx
  obtain ⟨i, hi⟩ := List.getElem?_of_mem hx
  exact h i x hi

theorem diff_list {p : Nat} {flt : UInt64 → Bytes} {fuel : Nat} {xs ys : List Val} (hfuel : 1 ≤ fuel)
    (hl : xs.length ≤ ys.length) (hy : ys.length < 2 ^ 32) (hwy : (Val.list ys).WF)
    (hg : ∀ (i : Nat) x y, xs[i]? = some x → ys[i]? = some y → DiffGood p flt fuel x y)
    {v : Val} {path : VPath} (hw : v.WF) (hv : getPath? v path = some (.list xs)) (hp : PlainPath path) (k : Nat)
    (hk : k ≤ ys.length) :
    ∃ rs : List Val, rs.length = k ∧ (∀ (i : Nat) x y, rs[i]? = some x → ys[i]? = some y → veq p x y = true) ∧
      (Val.list (rs ++ xs.drop k)).WF ∧
      Runs p flt v ((List.range k).flatMap fun i => diffRef p fuel xs[i]? ys[i]? (path ++ [.index (UInt32.ofNat i)]))
        (storeAt v path (.list (rs ++ xs.drop k))) := by
  induction k with
  | zero =>
    refine ⟨[], rfl, by simp, ?_, ?_⟩
    · simpa using getPath?_wf hw hv
    · simpa [storeAt_same hw hv] using Runs.nil
  | succ k ih =>
    obtain ⟨rs, h1, h2, h3, h4⟩ := ih (by omega)
    have hk32 : k < 2 ^ 32 := by omega
    obtain ⟨y, hyk⟩ : ∃ y, ys[k]? = some y := ⟨ys[k], List.getElem?_eq_getElem (by omega)⟩
    have hyw : y.WF := list_wf_mem hwy hyk
    rw [List.range_succ, List.flatMap_append, List.flatMap_cons, List.flatMap_nil, List.append_nil]
    have hw1 : (storeAt v path (.list (rs ++ xs.drop k))).WF := storeAt_wf hw h3
    have hv1 : getPath? (storeAt v path (.list (rs ++ xs.drop k))) path = some (.list (rs ++ xs.drop k)) :=
      getPath?_storeAt hv _
    have fin : ∀ r, r.WF → veq p r y = true → ∀ tl, (∀ (i : Nat) z, tl[i]? = some z → z.WF) →
        (∀ (i : Nat) x y', (rs ++ [r])[i]? = some x → ys[i]? = some y' → veq p x y' = true) ∧
        (Val.list ((rs ++ [r]) ++ tl)).WF := by
      intro r hr hry tl htl
      constructor
      · intro i x y' hx hy'
        by_cases hi : i < rs.length
        · rw [List.getElem?_append_left hi] at hx
          exact h2 i x y' hx hy'
        · rw [List.getElem?_append_right (by omega)] at hx
          have : i = k := by
            have := getElem?_lt hx
            simp at this
            omega
          subst this
          rw [hyk] at hy'; cases hy'
          have hx' : ([r] : List Val)[0]? = some x := by rw [← hx, h1]; simp
          cases hx'
          exact hry
      · simp only [Val.WF, WFList_iff] at h3 ⊢
        intro z hz
        simp only [List.mem_append, List.mem_singleton] at hz
        rcases hz with (hz | rfl) | hz
        · exact h3 z (by simp [hz])
        · exact hr
        · obtain ⟨i, hi⟩ := List.getElem?_of_mem hz
          exact htl i z hi
    by_cases hkx : k < xs.length
    · have hxk : xs[k]? = some xs[k] := List.getElem?_eq_getElem hkx
      have hdrop : xs.drop k = xs[k] :: xs.drop (k + 1) := List.drop_eq_getElem_cons hkx
      have hLk : (rs ++ xs.drop k)[k]? = some xs[k] := by
        rw [List.getElem?_append_right (by omega), h1, hdrop]; simp
      have hgc : getElem? (.list (rs ++ xs.drop k)) (.index (UInt32.ofNat k)) = some xs[k] := by
        rw [getElem?_ofNat hk32]; exact hLk
      have hv2 : getPath? (storeAt v path (.list (rs ++ xs.drop k))) (path ++ [.index (UInt32.ofNat k)]) = some xs[k] := by
        rw [getPath?_append, hv1]
        simp only [Option.bind_some, getPath?, hgc]
      obtain ⟨r, hr1, hr2, hr3⟩ := hg k _ y hxk hyk _ _ hw1 hv2 hp.snoc_index
      have hset : (rs ++ xs.drop k).set k r = (rs ++ [r]) ++ xs.drop (k + 1) := by
        rw [List.set_append_right _ _ (by omega), h1, Nat.sub_self, hdrop, List.set_cons_zero, List.append_assoc]
        rfl
      rw [storeAt_append _ _ _ _ _ hv1] at hr1
      simp only [storeAt, hgc, putElem_ofNat hk32, hset, storeAt_storeAt hv] at hr1
      obtain ⟨f1, f2⟩ := fin r hr3 hr2 (xs.drop (k + 1)) (fun i z hz =>
        list_wf_mem (getPath?_wf hw hv) (by rw [List.getElem?_drop] at hz; exact hz))
      refine ⟨rs ++ [r], by simp [h1], f1, f2, h4.append ?_⟩
      rw [hxk, hyk]
      exact hr1
    · have hd0 : xs.drop k = [] := List.drop_eq_nil_of_le (by omega)
      have hd1 : xs.drop (k + 1) = [] := List.drop_eq_nil_of_le (by omega)
      rw [hd0, List.append_nil] at h4 hv1 hw1
      have hxk : xs[k]? = none := List.getElem?_eq_none (by omega)
      have hrun := run_append (p := p) (flt := flt) hw1 hp (by omega) hv1 y
      rw [storeAt_storeAt hv, h1] at hrun
      obtain ⟨f1, f2⟩ := fin y hyw (veq_refl p y) [] (by simp)
      rw [List.append_nil] at f2
      obtain ⟨fuel', rfl⟩ : ∃ f, fuel = f + 1 := ⟨fuel - 1, by omega⟩
      refine ⟨rs ++ [y], by simp [h1], f1, by rw [hd1, List.append_nil]; exact f2, ?_⟩
      rw [hd1, List.append_nil]
      refine h4.append ?_
      rw [hxk, hyk]
      exact hrun

theorem map_wf_get {m : List (Bytes × Val)} (h : (Val.map m).WF) {k : Bytes} {c : Val} (hc : AMap.get m k = some c) :
    c.WF := getElem?_wf (e := .key k) h hc

theorem set_wf {m : List (Bytes × Val)} (h : (Val.map m).WF) {k : Bytes} {c : Val} (hc : c.WF) :
    (Val.map (AMap.set m k c)).WF := by
  simp only [Val.WF, WFMap_iff] at h ⊢
  refine ⟨AMap.sorted_set h.1 _ _, fun pr hp => ?_⟩
  rcases AMap.mem_set hp with rfl | hp
  · exact hc
  · exact h.2 _ hp

theorem diff_map {p : Nat} {flt : UInt64 → Bytes} {fuel : Nat} {m n : List (Bytes × Val)} (hfuel : 1 ≤ fuel)
    (hwn : (Val.map n).WF)
    (hg : ∀ k x y, AMap.get m k = some x → AMap.get n k = some y → DiffGood p flt fuel x y)
    {v : Val} {path : VPath} (hp : PlainPath path) (ks : List Bytes) (hnd : ks.Nodup)
    (hks : ∀ k ∈ ks, Plain k ∧ ((∃ c, AMap.get m k = some c) ∨ ∃ c, AMap.get n k = some c)) :
    ∀ cm, v.WF → (Val.map cm).WF → getPath? v path = some (.map cm) → (∀ k ∈ ks, AMap.get cm k = AMap.get m k) →
      (∀ k, k ∉ ks → EqOpt p (AMap.get cm k) (AMap.get n k)) →
      ∃ rm, (Val.map rm).WF ∧ (∀ k, EqOpt p (AMap.get rm k) (AMap.get n k)) ∧
        Runs p flt v (ks.flatMap fun k => diffRef p fuel (AMap.get m k) (AMap.get n k) (path ++ [.key k]))
          (storeAt v path (.map rm)) := by
  induction ks generalizing v with
  | nil =>
    intro cm hw hwc hv _ he
    exact ⟨cm, hwc, fun k => he k (by simp), by simpa [storeAt_same hw hv] using Runs.nil⟩
  | cons k ks ih =>
    intro cm hw hwc hv hc he
    obtain ⟨hkn, hnd'⟩ := List.nodup_cons.mp hnd
    obtain ⟨hpk, hor⟩ := hks k (by simp)
    have hck := hc k (by simp)
    obtain ⟨fuel', rfl⟩ : ∃ f, fuel = f + 1 := ⟨fuel - 1, by omega⟩
    have hpp := hp.snoc_key hpk
    -- one key, then the rest
    have rest : ∀ cm', (Val.map cm').WF → (∀ j, j ≠ k → AMap.get cm' j = AMap.get cm j) →
        EqOpt p (AMap.get cm' k) (AMap.get n k) →
        Runs p flt v (diffRef p (fuel' + 1) (AMap.get m k) (AMap.get n k) (path ++ [.key k])) (storeAt v path (.map cm')) →
        ∃ rm, (Val.map rm).WF ∧ (∀ k, EqOpt p (AMap.get rm k) (AMap.get n k)) ∧
          Runs p flt v ((k :: ks).flatMap fun k => diffRef p (fuel' + 1) (AMap.get m k) (AMap.get n k) (path ++ [.key k]))
            (storeAt v path (.map rm)) := by
      intro cm' hw' hoth hkk hrun
      obtain ⟨rm, r1, r2, r3⟩ := ih hnd' (fun j hj => hks j (by simp [hj])) (v := storeAt v path (.map cm')) cm'
        (storeAt_wf hw hw') hw' (getPath?_storeAt hv _)
        (fun j hj => by
          have hjk : j ≠ k := fun e => hkn (e ▸ hj)
          rw [hoth j hjk]; exact hc j (by simp [hj]))
        (fun j hj => by
          by_cases hjk : j = k
          · subst hjk; exact hkk
          · rw [hoth j hjk]; exact he j (by simp [hj, hjk]))
      rw [storeAt_storeAt hv] at r3
      refine ⟨rm, r1, r2, ?_⟩
      rw [List.flatMap_cons]
      exact hrun.append r3
    cases hm : AMap.get m k with
    | none =>
      cases hn : AMap.get n k with
      | none => rw [hm, hn] at hor; simp at hor
      | some y =>
        refine rest (AMap.set cm k y) (set_wf hwc (map_wf_get hwn hn)) (fun j hj => AMap.get_set_other _ _ _ _ hj) ?_ ?_
        · rw [AMap.get_set_self, hn]; exact veq_refl p y
        · rw [hm, hn]; exact run_add_member hw hpp hv y
    | some x =>
      rw [hm] at hck
      cases hn : AMap.get n k with
      | none =>
        refine rest (AMap.erase cm k) (erase_wf hwc k) (fun j hj => AMap.get_erase_other _ _ _ hj) ?_ ?_
        · rw [AMap.get_erase_self (wf_sorted hwc), hn]; trivial
        · rw [hm, hn]; exact run_remove_member hw hpp hv hck
      | some y =>
        have e2 : getElem? (.map cm) (.key k) = some x := hck
        have hv2 : getPath? v (path ++ [.key k]) = some x := by
          rw [getPath?_append, hv]
          simp only [Option.bind_some, getPath?, e2]
        obtain ⟨r, hr1, hr2, hr3⟩ := hg k x y hm hn v _ hw hv2 hpp
        rw [storeAt_append _ _ _ _ _ hv] at hr1
        simp only [storeAt, e2, putElem] at hr1
        refine rest (AMap.set cm k r) (set_wf hwc hr3) (fun j hj => AMap.get_set_other _ _ _ _ hj) ?_ ?_
        · rw [AMap.get_set_self, hn]; exact hr2
        · rw [hm, hn]; exact hr1

theorem diff_good (p : Nat) (flt : UInt64 → Bytes) (fuel : Nat) (s d : Val) (hfu : depth s + 1 ≤ fuel) (hd : d.WF)
    (hks : PlainKeys s) (hkd : PlainKeys d) (hfs : ListsFit s) (hfd : ListsFit d) (hns : NoShrink s d) :
    DiffGood p flt fuel s d := by
  induction fuel generalizing s d with
  | zero => omega
  | succ fuel ih =>
    intro v path hw hv hp
    have hsw := getPath?_wf hw hv
    have hrep : diffRef p (fuel + 1) (some s) (some d) path = [opReplace path d] →
        ∃ r, Runs p flt v (diffRef p (fuel + 1) (some s) (some d) path) (storeAt v path r) ∧ veq p r d = true ∧ r.WF :=
      fun h => ⟨d, by rw [h]; exact run_replace hw hp hv d, veq_refl p d, hd⟩
    by_cases hty : s.ty = d.ty
    · cases hve : veq p s d with
      | true =>
        refine ⟨s, ?_, hve, hsw⟩
        rw [diffRef_eq hty hve, storeAt_same hw hv]
        exact Runs.nil
      | false =>
        cases s with
        | list xs =>
          cases d with
          | list ys =>
            simp only [depth] at hfu
            have hlen : xs.length ≤ ys.length := hns [] xs ys rfl rfl
            have hyl := hfd.here ys rfl
            have hg : ∀ (i : Nat) x y, xs[i]? = some x → ys[i]? = some y → DiffGood p flt fuel x y := by
              intro i x y hx hy
              have hi : i < 2 ^ 32 := item_lt hfd hy
              have e1 : getElem? (.list xs) (.index (UInt32.ofNat i)) = some x := by rw [getElem?_ofNat hi]; exact hx
              have e2 : getElem? (.list ys) (.index (UInt32.ofNat i)) = some y := by rw [getElem?_ofNat hi]; exact hy
              have := depth_item hx
              exact ih x y (by omega) (list_wf_mem hd hy) (hks.child e1) (hkd.child e2) (hfs.child e1) (hfd.child e2)
                (hns.child e1 e2)
            obtain ⟨rs, h1, h2, h3, h4⟩ := diff_list (flt := flt) (by omega) hlen hyl hd hg hw hv hp ys.length (Nat.le_refl _)
            have hdr : xs.drop ys.length = [] := List.drop_eq_nil_of_le hlen
            rw [hdr, List.append_nil] at h3 h4
            refine ⟨.list rs, ?_, veq_list (eqList_of_get h1 h2), h3⟩
            rw [diffRef_list hve, Nat.max_eq_right hlen]
            exact h4
          | _ => cases hty
        | map m =>
          cases d with
          | map n =>
            simp only [depth] at hfu
            have hg : ∀ k x y, AMap.get m k = some x → AMap.get n k = some y → DiffGood p flt fuel x y := by
              intro k x y hx hy
              have e1 : getElem? (.map m) (.key k) = some x := hx
              have e2 : getElem? (.map n) (.key k) = some y := hy
              have := depth_member hx
              exact ih x y (by omega) (map_wf_get hd hy) (hks.child e1) (hkd.child e2) (hfs.child e1) (hfd.child e2)
                (hns.child e1 e2)
            have hmem : ∀ k, k ∈ unionKeys (unionKeys [] (n.map (·.1))) (m.map (·.1)) ↔
                (∃ c, AMap.get m k = some c) ∨ ∃ c, AMap.get n k = some c := by
              intro k
              rw [mem_unionKeys, mem_unionKeys, get_isSome_iff, get_isSome_iff]
              simp only [List.not_mem_nil, false_or]
              exact Or.comm
            obtain ⟨rm, r1, r2, r3⟩ := diff_map (m := m) (flt := flt) (by omega) hd hg hp
              (unionKeys (unionKeys [] (n.map (·.1))) (m.map (·.1)))
              (increasing_unionKeys (increasing_unionKeys (ks := []) trivial)).nodup
              (fun k hk => ⟨by
                rcases (hmem k).mp hk with ⟨c, hc⟩ | ⟨c, hc⟩
                · exact hks.key (c := c) hc
                · exact hkd.key (c := c) hc, (hmem k).mp hk⟩)
              m hw hsw hv (fun _ _ => rfl)
              (fun k hk => by
                have := mt (hmem k).mpr hk
                simp only [not_or, not_exists] at this
                have e1 : AMap.get m k = none := by
                  cases h : AMap.get m k with
                  | none => rfl
                  | some c => exact absurd h (this.1 c)
                have e2 : AMap.get n k = none := by
                  cases h : AMap.get n k with
                  | none => rfl
                  | some c => exact absurd h (this.2 c)
                rw [e1, e2]; trivial)
            refine ⟨.map rm, ?_, veq_map (eqMap_of_get (wf_sorted r1) (wf_sorted hd) r2), r1⟩
            rw [diffRef_map hve]
            exact r3
          | _ => cases hty
        | _ => exact hrep (diffRef_leaf hty hve nofun nofun)
    · exact hrep (diffRef_ty hty)

/-- **C41.** Applying the difference of two documents to the first succeeds and yields a document
equal to the second.  Partial: keys with `/` or `~` and lists that get shorter are excluded (see
`diff_slash_false`, `diff_shrink_false`). -/
theorem diff_patch_partial (p : Nat) (flt : UInt64 → Bytes) (src dst : Val) (hs : src.WF) (hd : dst.WF)
    (hks : PlainKeys src) (hkd : PlainKeys dst) (hfs : ListsFit src) (hfd : ListsFit dst) (hn : NoShrink src dst) :
    ∃ r, patch p flt src (jsonDiff p src dst) = (r, .ok true) ∧ veq p r dst = true := by
  obtain ⟨r, h1, h2, _⟩ := diff_good p flt _ src dst (Nat.le_refl _) hd hks hkd hfs hfd hn src [] hs rfl nofun
  obtain ⟨us, h⟩ := h1 []
  exact ⟨r, by simp only [patch, jsonDiff, patchOps, h]; rfl, h2⟩

/-- Two documents that meet the hypotheses: in a list in an object, one element changes type and
another is appended. -/
def before : Val := .map [([0x61], .list [.int 1])]
def after : Val := .map [([0x61], .list [.str [0x78], .null])]

theorem paths_flat (m : List (Bytes × Val)) (P : VPath → Val → Prop) (h0 : P [] (.map m))
    (h : ∀ k c, AMap.get m k = some c → ∀ q d, getPath? c q = some d → P (.key k :: q) d) :
    ∀ q d, getPath? (.map m) q = some d → P q d := by
  intro q d hq
  cases q with
  | nil => cases hq; exact h0
  | cons e q =>
    rw [getPath?_cons] at hq
    cases e with
    | key k =>
      cases hc : getElem? (.map m) (.key k) with
      | none => rw [hc] at hq; cases hq
      | some c => rw [hc] at hq; exact h k c hc q d hq
    | index i => cases hq

theorem plainKeys_map {m : List (Bytes × Val)} (h : ∀ k c, AMap.get m k = some c → Plain k ∧ PlainKeys c) :
    PlainKeys (.map m) := by
  refine paths_flat m (fun q _ => PlainPath q) (by intro k hk; cases hk) ?_
  intro k c hc q d hq k' hk'
  rcases List.mem_cons.mp hk' with e | hk'
  · cases e; exact (h k c hc).1
  · exact (h k c hc).2 q d hq k' hk'

theorem plainKeys_list {xs : List Val} (h : ∀ x ∈ xs, PlainKeys x) : PlainKeys (.list xs) := by
  intro q d hq k hk
  cases q with
  | nil => cases hk
  | cons e q =>
    rw [getPath?_cons] at hq
    cases e with
    | key k => cases hq
    | index i =>
      cases hc : getElem? (.list xs) (.index i) with
      | none => rw [hc] at hq; cases hq
      | some c =>
        rw [hc] at hq
        have hm : c ∈ xs := List.mem_of_getElem? hc
        rcases List.mem_cons.mp hk with e | hk
        · cases e
        · exact h c hm q d hq k hk

theorem plainKeys_leaf {v : Val} (h : ∀ e, getElem? v e = none) : PlainKeys v := by
  intro q d hq k hk
  cases q with
  | nil => cases hk
  | cons e q => rw [getPath?_cons, h e] at hq; cases hq

theorem noShrink_map {m n : List (Bytes × Val)}
    (h : ∀ k a b, AMap.get m k = some a → AMap.get n k = some b → NoShrink a b) : NoShrink (.map m) (.map n) := by
  intro q xs ys h1 h2
  cases q with
  | nil => cases h1
  | cons e q =>
    rw [getPath?_cons] at h1 h2
    cases ha : getElem? (.map m) e with
    | none => rw [ha] at h1; cases h1
    | some a =>
      cases hb : getElem? (.map n) e with
      | none => rw [hb] at h2; cases h2
      | some b =>
        rw [ha] at h1; rw [hb] at h2
        cases e with
        | key k => exact h k a b ha hb q xs ys h1 h2
        | index i => cases ha

example (p : Nat) (flt : UInt64 → Bytes) :
    ∃ r, patch p flt before (jsonDiff p before after) = (r, .ok true) ∧ veq p r after = true := by
  have leaf : ∀ v : Val, v.ty ≠ .list → v.ty ≠ .map → ∀ e, getElem? v e = none := by
    intro v h1 h2 e; cases v <;> cases e <;> first | rfl | exact absurd rfl h1 | exact absurd rfl h2
  have hpl : Plain [0x61] := by intro c hc; simp at hc; subst hc; decide
  apply diff_patch_partial
  · simp [before, Val.WF, WFList, WFMap, AMap.Sorted, AMap.above]
  · simp [after, Val.WF, WFList, WFMap, AMap.Sorted, AMap.above]
  · refine plainKeys_map fun k c h => ?_
    rcases get_one h with ⟨rfl, rfl⟩
    exact ⟨hpl, plainKeys_list (by simp; exact plainKeys_leaf (leaf _ nofun nofun))⟩
  · refine plainKeys_map fun k c h => ?_
    rcases get_one h with ⟨rfl, rfl⟩
    refine ⟨hpl, plainKeys_list ?_⟩
    simp only [List.mem_cons, List.not_mem_nil, or_false]
    rintro x (rfl | rfl) <;> exact plainKeys_leaf (leaf _ nofun nofun)
  · refine fits_map fun k c h => ?_
    rcases get_one h with ⟨_, rfl⟩
    refine fits_list (by decide) fun c h => ?_
    simp only [List.mem_cons, List.not_mem_nil, or_false] at h
    subst h; exact fits_leaf rfl rfl
  · refine fits_map fun k c h => ?_
    rcases get_one h with ⟨_, rfl⟩
    refine fits_list (by decide) fun c h => ?_
    simp only [List.mem_cons, List.not_mem_nil, or_false] at h
    rcases h with rfl | rfl <;> exact fits_leaf rfl rfl
  · refine noShrink_map fun k a b ha hb => ?_
    rcases get_one ha with ⟨_, rfl⟩
    rcases get_one hb with ⟨_, rfl⟩
    intro q xs ys h1 h2
    cases q with
    | nil => cases h1; cases h2; decide
    | cons e q =>
      rw [getPath?_cons] at h1
      cases hc : getElem? (.list [.int 1]) e with
      | none => rw [hc] at h1; cases h1
      | some c =>
        rw [hc] at h1
        have hci : c = .int 1 := by
          cases e with
          | key k => cases hc
          | index i => simpa using List.mem_of_getElem? hc
        subst hci
        cases q with
        | nil => cases h1
        | cons e q => rw [Option.bind_some, getPath?_cons, leaf (.int 1) nofun nofun e] at h1; cases h1

/-- A list that gets shorter: the difference removes an element, which the patch cannot do. -/
theorem diff_shrink_false :
    patch 64 (fun _ => []) (.list [.int 1]) (jsonDiff 64 (.list [.int 1]) (.list [])) =
      (.list [.int 1], .ok false) := by
  have h : jsonDiff 64 (.list [.int 1]) (.list []) = .list [opRemove [.index 0]] := rfl
  rw [h]
  simp only [opRemove, formPointer_zero]
  rfl

/-- A key with a slash: the pointer in the difference means something else. -/
theorem diff_slash_false :
    patch 64 (fun _ => []) (.map []) (jsonDiff 64 (.map []) (.map [([0x61, 0x2f, 0x62], .null)])) =
      (.map [], .ok false) := rfl

end Verif.Ext
