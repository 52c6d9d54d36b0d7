import Verif.Ext.PointerLemmas
/-! # Pointer operations as: go to the parent, then act -/

namespace Verif.Ext
open Verif

/-- The path the components lead along, if there are such elements. -/
def walk (v : Val) : List Bytes → Option VPath
  | [] => some []
  | t :: ts =>
    match childElem v t with
    | none => none
    | some e => match getElem? v e with
      | none => none
      | some c => (walk c ts).map (e :: ·)

theorem walk_get {v : Val} {ts : List Bytes} {q : VPath} (h : walk v ts = some q) :
    ∃ c, getPath? v q = some c := by
  induction ts generalizing v q with
  | nil => cases h; exact ⟨v, rfl⟩
  | cons t ts ih =>
    simp only [walk] at h
    split at h
    · cases h
    · split at h
      · cases h
      · rename_i e _ _ c hc
        cases hw : walk c ts with
        | none => rw [hw] at h; cases h
        | some q' =>
          rw [hw] at h; cases h
          obtain ⟨d, hd⟩ := ih hw
          exact ⟨d, by rw [getPath?_cons, hc]; exact hd⟩

/-- Put a path in front of the one reported. -/
def addPath (q : VPath) (r : PRes) : PRes := { r with path := q ++ r.path }

theorem map_map {α β γ : Type} (f : α → β) (g : β → γ) (o : Out α) : g <$> (f <$> o) = (fun a => g (f a)) <$> o := by
  cases o <;> rfl

theorem opTokens_walk (p : Nat) (op : POp) (t : Bytes) {v : Val} (hw : v.WF) {pre : List Bytes} :
    (walk v pre = none → opTokens p v op (pre ++ [t]) = (v, .throw .runtime)) ∧
    (∀ q c, walk v pre = some q → getPath? v q = some c →
      opTokens p v op (pre ++ [t]) = (storeAt v q (opLast p c t op).1, addPath q <$> (opLast p c t op).2)) := by
  induction pre generalizing v with
  | nil =>
    refine ⟨fun h => (by cases h), fun q c h1 h2 => ?_⟩
    cases h1; cases h2
    simp only [List.nil_append, opTokens, storeAt]
    cases (opLast p v t op) with
    | mk a o => cases o <;> rfl
  | cons s pre ih =>
    obtain ⟨s', ts, hs⟩ : ∃ s' ts, pre ++ [t] = s' :: ts := by
      cases pre with
      | nil => exact ⟨t, [], rfl⟩
      | cons a b => exact ⟨a, b ++ [t], rfl⟩
    rw [List.cons_append, hs]
    simp only [opTokens, walk]
    cases he : childElem v s with
    | none => exact ⟨fun _ => rfl, fun q c h => (by cases h)⟩
    | some e =>
      dsimp only
      cases hc : getElem? v e with
      | none => exact ⟨fun _ => rfl, fun q c h => (by cases h)⟩
      | some d =>
        obtain ⟨ih1, ih2⟩ := ih (v := d) (getElem?_wf hw hc)
        rw [hs] at ih1 ih2
        simp only
        constructor
        · intro h
          have : walk d pre = none := by
            cases hwd : walk d pre with
            | none => rfl
            | some q => rw [hwd] at h; cases h
          rw [ih1 this]
          simp only [putElem_same hw hc]
          rfl
        · intro q c h1 h2
          cases hwd : walk d pre with
          | none => rw [hwd] at h1; cases h1
          | some q' =>
            rw [hwd] at h1; cases h1
            rw [getPath?_cons, hc] at h2
            rw [ih2 q' c hwd h2]
            simp only [storeAt, hc, map_map]
            rfl

/-- The last component, when only reading. -/
theorem opLast_get (p : Nat) (c : Val) (t : Bytes) :
    (walk c [t] = none → ∃ e, opLast p c t .get = (c, .throw e)) ∧
    (∀ q w, walk c [t] = some q → getPath? c q = some w → opLast p c t .get = (c, .ok ⟨q, w, none, true⟩)) := by
  cases c with
  | map m =>
    have e1 : childElem (.map m) t = some (.key t) := rfl
    have e2 : getElem? (.map m) (.key t) = AMap.get m t := rfl
    simp only [walk, e1, e2, opLast, opMap]
    cases h : AMap.get m t with
    | none => exact ⟨fun _ => ⟨_, rfl⟩, fun q w h => (by cases h)⟩
    | some c =>
      refine ⟨fun h => (by cases h), fun q w h1 h2 => ?_⟩
      cases h1
      simp only [getPath?, e2, h, Option.some.injEq] at h2
      rw [h2]
  | list xs =>
    have e1 : childElem (.list xs) t = (isIndex t).map fun n => .index (UInt32.ofNat n) := rfl
    simp only [walk, e1, opLast, opList]
    by_cases hd : t = [0x2d]
    · have : isIndex t = none := by rw [hd]; decide
      rw [if_pos hd, this]
      exact ⟨fun _ => ⟨_, rfl⟩, fun q w h => (by cases h)⟩
    · rw [if_neg hd]
      cases hi : isIndex t with
      | none => exact ⟨fun _ => ⟨_, rfl⟩, fun q w h => (by cases h)⟩
      | some n =>
        have e2 : getElem? (.list xs) (.index (UInt32.ofNat n)) = xs[n % 2 ^ 32]? := rfl
        simp only [Option.map_some, e2, opIndex]
        cases h : xs[n % 2 ^ 32]? with
        | none => exact ⟨fun _ => ⟨_, rfl⟩, fun q w h => (by cases h)⟩
        | some c =>
          refine ⟨fun h => (by cases h), fun q w h1 h2 => ?_⟩
          cases h1
          simp only [getPath?, e2, h, Option.some.injEq] at h2
          rw [h2]
  | _ => exact ⟨fun _ => ⟨_, rfl⟩, fun q w h => (by cases h)⟩

theorem walk_append {v : Val} (pre ts : List Bytes) :
    walk v (pre ++ ts) = (walk v pre).bind fun q => ((getPath? v q).bind fun c => walk c ts).map (q ++ ·) := by
  induction pre generalizing v with
  | nil => simp [walk, getPath?]
  | cons t pre ih =>
    simp only [List.cons_append, walk]
    cases he : childElem v t with
    | none => rfl
    | some e =>
      dsimp only
      cases hc : getElem? v e with
      | none => rfl
      | some c =>
        simp only [ih]
        cases walk c pre with
        | none => rfl
        | some q =>
          simp only [Option.bind_some, Option.map_some, getPath?_cons, hc]
          cases ((getPath? c q).bind fun c => walk c ts) <;> rfl

theorem opTokens_get (p : Nat) {v : Val} (hw : v.WF) (ts : List Bytes) :
    (walk v ts = none → ∃ e, opTokens p v .get ts = (v, .throw e)) ∧
    (∀ q w, walk v ts = some q → getPath? v q = some w → opTokens p v .get ts = (v, .ok ⟨q, w, none, true⟩)) := by
  rcases List.eq_nil_or_concat ts with rfl | ⟨pre, t, rfl⟩
  · refine ⟨fun h => (by cases h), fun q w h1 h2 => ?_⟩
    cases h1; cases h2; rfl
  · rw [List.concat_eq_append]
    obtain ⟨h1, h2⟩ := opTokens_walk p .get t hw (pre := pre)
    rw [walk_append]
    cases hwp : walk v pre with
    | none => exact ⟨fun _ => ⟨_, h1 hwp⟩, fun q w h => (by cases h)⟩
    | some q' =>
      obtain ⟨c, hc⟩ := walk_get hwp
      rw [h2 q' c hwp hc]
      simp only [Option.bind_some, hc]
      obtain ⟨g1, g2⟩ := opLast_get p c t
      constructor
      · intro h
        have : walk c [t] = none := by
          cases hwc : walk c [t] with
          | none => rfl
          | some q => rw [hwc] at h; cases h
        obtain ⟨e, he⟩ := g1 this
        rw [he, storeAt_same hw hc]
        exact ⟨e, rfl⟩
      · intro q w h3 h4
        cases hwc : walk c [t] with
        | none => rw [hwc] at h3; cases h3
        | some q2 =>
          rw [hwc] at h3; cases h3
          rw [getPath?_append, hc] at h4
          rw [g2 q2 w hwc h4, storeAt_same hw hc]
          rfl

/-! ## Relation to the specification -/

theorem childElem_list {xs : List Val} {t : Bytes} {e : PathElem} (ht : Proper t)
    (h : childElem (.list xs) t = some e) : ∃ n, n < 2 ^ 32 ∧ t = natDec n ∧ e = .index (UInt32.ofNat n) := by
  simp only [childElem] at h
  cases hi : isIndex t with
  | none => rw [hi] at h; cases h
  | some n =>
    rw [hi] at h; cases h
    obtain ⟨h1, h2⟩ := ht.isIndex hi
    exact ⟨n, h1, h2, rfl⟩

theorem getElem?_ofNat {xs : List Val} {n : Nat} (h : n < 2 ^ 32) :
    getElem? (.list xs) (.index (UInt32.ofNat n)) = xs[n]? := by
  simp only [getElem?, getIndex?, ofNat_toNat h]

theorem putElem_ofNat {xs : List Val} {n : Nat} (h : n < 2 ^ 32) (c : Val) :
    putElem (.list xs) (.index (UInt32.ofNat n)) c = .list (xs.set n c) := by
  simp only [putElem, ofNat_toNat h]

theorem walk_reaches {v w : Val} {ts : List Bytes} {q : VPath} (hp : ∀ t ∈ ts, Proper t)
    (h : walk v ts = some q) (hg : getPath? v q = some w) : Reaches v ts w := by
  induction ts generalizing v q with
  | nil => cases h; cases hg; exact .here
  | cons t ts ih =>
    simp only [walk] at h
    split at h
    · cases h
    · rename_i e he
      split at h
      · cases h
      · rename_i c hc
        cases hwc : walk c ts with
        | none => rw [hwc] at h; cases h
        | some q' =>
          rw [hwc] at h; cases h
          rw [getPath?_cons, hc] at hg
          have ih := ih (fun t ht => hp t (by simp [ht])) hwc hg
          cases v with
          | map m => cases he; exact .member hc ih
          | list xs =>
            obtain ⟨n, hn, rfl, rfl⟩ := childElem_list (hp t (by simp)) he
            rw [getElem?_ofNat hn] at hc
            exact .item hc ih
          | _ => cases he

theorem walk_member {m : List (Bytes × Val)} {t : Bytes} {c : Val} {ts : List Bytes} {q : VPath}
    (h : AMap.get m t = some c) (hq : walk c ts = some q) : walk (.map m) (t :: ts) = some (.key t :: q) := by
  have e1 : childElem (.map m) t = some (.key t) := rfl
  have e2 : getElem? (.map m) (.key t) = some c := h
  simp only [walk, e1, e2, hq, Option.map_some]

theorem walk_item {xs : List Val} {n : Nat} {c : Val} {ts : List Bytes} {q : VPath} (hn : n < 2 ^ 32)
    (h : xs[n]? = some c) (hq : walk c ts = some q) :
    walk (.list xs) (natDec n :: ts) = some (.index (UInt32.ofNat n) :: q) := by
  have e1 : childElem (.list xs) (natDec n) = some (.index (UInt32.ofNat n)) := by
    simp only [childElem, isIndex_natDec (show n < 2 ^ 64 by omega), Option.map_some]
  simp only [walk, e1, getElem?_ofNat hn, h, hq, Option.map_some]

theorem item_lt {xs : List Val} {n : Nat} {c : Val} (hf : ListsFit (.list xs)) (h : xs[n]? = some c) :
    n < 2 ^ 32 := by
  have h1 := hf.here xs rfl
  have h2 : n < xs.length := getElem?_lt h
  omega

theorem reaches_walk {v w : Val} {ts : List Bytes} (hf : ListsFit v) (h : Reaches v ts w) :
    ∃ q, walk v ts = some q ∧ getPath? v q = some w := by
  induction h with
  | here => exact ⟨[], rfl, rfl⟩
  | @member m t c ts w h _ ih =>
    obtain ⟨q, h1, h2⟩ := ih (hf.child (e := .key t) h)
    refine ⟨.key t :: q, walk_member h h1, ?_⟩
    rw [getPath?_cons]
    have : getElem? (.map m) (.key t) = some c := h
    rw [this]; exact h2
  | @item xs n c ts w h _ ih =>
    have hn := item_lt hf h
    have hc : getElem? (.list xs) (.index (UInt32.ofNat n)) = some c := by rw [getElem?_ofNat hn]; exact h
    obtain ⟨q, h1, h2⟩ := ih (hf.child hc)
    refine ⟨.index (UInt32.ofNat n) :: q, walk_item hn h h1, ?_⟩
    rw [getPath?_cons, hc]; exact h2

theorem walk_below {Edit : Val → Bytes → Val → Prop} {v c c' : Val} {pre : List Bytes} {t : Bytes} {q : VPath}
    (hp : ∀ t ∈ pre, Proper t) (h : walk v pre = some q) (hg : getPath? v q = some c) (he : Edit c t c') :
    Below Edit v (pre ++ [t]) (storeAt v q c') := by
  induction pre generalizing v q with
  | nil => cases h; cases hg; exact .last he
  | cons s ts ih =>
    simp only [walk] at h
    split at h
    · cases h
    · rename_i e hce
      split at h
      · cases h
      · rename_i d hd
        cases hwc : walk d ts with
        | none => rw [hwc] at h; cases h
        | some q' =>
          rw [hwc] at h; cases h
          rw [getPath?_cons, hd] at hg
          have ih := ih (fun t ht => hp t (by simp [ht])) hwc hg
          simp only [storeAt, hd]
          cases v with
          | map m => cases hce; exact .member hd ih
          | list xs =>
            obtain ⟨n, hn, rfl, rfl⟩ := childElem_list (hp s (by simp)) hce
            rw [putElem_ofNat hn]
            rw [getElem?_ofNat hn] at hd
            exact .item hd ih
          | _ => cases hce

theorem below_walk {Edit : Val → Bytes → Val → Prop} {v v' : Val} {ts : List Bytes} (hf : ListsFit v)
    (h : Below Edit v ts v') :
    ∃ pre t q c c', ts = pre ++ [t] ∧ walk v pre = some q ∧ getPath? v q = some c ∧ Edit c t c' ∧
      v' = storeAt v q c' := by
  induction h with
  | @last v t v' h => exact ⟨[], t, [], v, v', rfl, rfl, rfl, h, rfl⟩
  | @member m t c ts c' h _ ih =>
    obtain ⟨pre, s, q, d, d', rfl, h1, h2, h3, h4⟩ := ih (hf.child (e := .key t) h)
    have e2 : getElem? (.map m) (.key t) = some c := h
    refine ⟨t :: pre, s, .key t :: q, d, d', rfl, walk_member h h1, ?_, h3, ?_⟩
    · rw [getPath?_cons, e2]; exact h2
    · simp only [storeAt, e2, ← h4]; rfl
  | @item xs n c ts c' h _ ih =>
    have hn := item_lt hf h
    have hc : getElem? (.list xs) (.index (UInt32.ofNat n)) = some c := by rw [getElem?_ofNat hn]; exact h
    obtain ⟨pre, s, q, d, d', rfl, h1, h2, h3, h4⟩ := ih (hf.child hc)
    refine ⟨natDec n :: pre, s, .index (UInt32.ofNat n) :: q, d, d', rfl, walk_item hn h h1, ?_, h3, ?_⟩
    · rw [getPath?_cons, hc]; exact h2
    · simp only [storeAt, hc, ← h4, putElem_ofNat hn]

end Verif.Ext
