import Verif.Payload.Model
import Verif.Payload.Spec
import Verif.Json.RoundTrip
import Verif.Val.PathProps
/-!
# The header that is written (lemmas for C45)
-/

namespace Verif.Payload
open Verif Verif.Event Verif.JsonEmit Verif.JsonDrv Verif.JsonTok Verif.Build

/-- The header with its length, in the order it is written: a missing length comes last. -/
def lenTree (n : UInt64) : Val → VPath → Val
  | _, [] => .uint n
  | .map m, .key k :: q => match AMap.get m k with
    | some c => .map (AMap.set m k (lenTree n c q))
    | none => .map (m ++ [(k, (setPath .null q (.uint n)).1)])
  | v, _ :: _ => v

def withoutO (v : Val) : Option VPath → Val
  | none => v
  | some q => without v q

def lenO (n : UInt64) (v : Val) : Option VPath → Val
  | none => v
  | some q => lenTree n v q

/-- What is written for `v`. -/
def hdr (n : UInt64) (v : Val) (l d : Option VPath) : Val := lenO n (withoutO v d) l

/-- The calls are those for a value. -/
def Emits (r : Out (List Call)) (w : Val) : Prop := ∃ cs, r = .ok cs ∧ cs.flatMap jsonOps = opsOf w

mutual
theorem valTree_ops : ∀ v : Val, ((valTree v).calls).flatMap jsonOps = opsOf v
  | .null => rfl
  | .bool true => rfl
  | .bool false => rfl
  | .int _ => rfl
  | .uint _ => rfl
  | .flt _ => rfl
  | .str _ => rfl
  | .blob _ => rfl
  | .list xs => by
    simp only [valTree, Tree.calls, List.flatMap_cons, List.flatMap_append, jsonOps, opsOf, valTrees_ops xs]
    rfl
  | .map m => by
    simp only [valTree, Tree.calls, List.flatMap_cons, List.flatMap_append, jsonOps, opsOf, valPairs_ops m]
    rfl
theorem valTrees_ops : ∀ xs : List Val, (callsList (valTrees xs)).flatMap jsonOps = opsOfList xs
  | [] => rfl
  | x :: xs => by simp only [valTrees, callsList, List.flatMap_append, opsOfList, valTree_ops x, valTrees_ops xs]
theorem valPairs_ops : ∀ m : List (Bytes × Val), (callsPairs (valPairs m)).flatMap jsonOps = opsOfMap m
  | [] => rfl
  | (k, x) :: m => by
    simp only [valPairs, callsPairs, List.flatMap_append, opsOfMap, valTree_ops x, valPairs_ops m]
    rfl
end

theorem next_none (b : Bool) : next b none = none := by cases b <;> rfl

theorem emits_list {num : Bytes → Option UInt64} {n : UInt64} {l d : Option VPath} {li : Option UInt64} {xs ys : List Val}
    {cs tl : List Call} (he : early n l d = none) (hl : pathNum num l = .ok li)
    (h1 : payloadCalls.listCalls num n 0 xs li l d = .ok cs) (h2 : listTail n xs.length li l = .ok tl)
    (h3 : (cs ++ tl).flatMap jsonOps = opsOfList ys) : Emits (payloadCalls num n (.list xs) l d) (.list ys) := by
  refine ⟨.beginList (toInt32 (listSize xs.length li)) :: (cs ++ tl ++ [.endList]), ?_, ?_⟩
  · simp only [payloadCalls, he, hl, h1, h2, Out.bind_ok]
  · rw [List.flatMap_cons, List.flatMap_append, h3]
    simp [jsonOps, opsOf]

theorem emits_map {num : Bytes → Option UInt64} {n : UInt64} {l d : Option VPath} {m ys : List (Bytes × Val)}
    {cs tl : List Call} (he : early n l d = none)
    (h1 : payloadCalls.mapCalls num n m l d = .ok cs) (h2 : mapTail n m l = .ok tl)
    (h3 : (cs ++ tl).flatMap jsonOps = opsOfMap ys) : Emits (payloadCalls num n (.map m) l d) (.map ys) := by
  refine ⟨.beginMap (toInt32 (mapSize m l d)) :: (cs ++ tl ++ [.endMap]), ?_, ?_⟩
  · simp only [payloadCalls, he, h1, h2, Out.bind_ok]
  · rw [List.flatMap_cons, List.flatMap_append, h3]
    simp [jsonOps, opsOf]

mutual
theorem calls_plain (num : Bytes → Option UInt64) (n : UInt64) : ∀ v : Val, Emits (payloadCalls num n v none none) v
  | .null => ⟨_, rfl, rfl⟩
  | .bool true => ⟨_, rfl, rfl⟩
  | .bool false => ⟨_, rfl, rfl⟩
  | .int _ => ⟨_, rfl, rfl⟩
  | .uint _ => ⟨_, rfl, rfl⟩
  | .flt _ => ⟨_, rfl, rfl⟩
  | .str _ => ⟨_, rfl, rfl⟩
  | .blob _ => ⟨_, rfl, rfl⟩
  | .list xs => by
    obtain ⟨cs, h1, h2⟩ := listCalls_plain num n xs 0
    exact emits_list rfl rfl h1 rfl (by simpa using h2)
  | .map m => by
    obtain ⟨cs, h1, h2⟩ := mapCalls_plain num n m
    exact emits_map rfl h1 rfl (by simpa using h2)
theorem listCalls_plain (num : Bytes → Option UInt64) (n : UInt64) : ∀ (xs : List Val) (i : Nat),
    ∃ cs, payloadCalls.listCalls num n i xs none none none = .ok cs ∧ cs.flatMap jsonOps = opsOfList xs
  | [], _ => ⟨_, rfl, rfl⟩
  | x :: xs, i => by
    obtain ⟨a, h1, h2⟩ := calls_plain num n x
    obtain ⟨b, h3, h4⟩ := listCalls_plain num n xs (i + 1)
    refine ⟨a ++ b, ?_, by simp [opsOfList, h2, h4]⟩
    simp only [payloadCalls.listCalls, pathNum, Out.bind_ok, next_none, h1, h3]
theorem mapCalls_plain (num : Bytes → Option UInt64) (n : UInt64) : ∀ (m : List (Bytes × Val)),
    ∃ cs, payloadCalls.mapCalls num n m none none = .ok cs ∧ cs.flatMap jsonOps = opsOfMap m
  | [] => ⟨_, rfl, rfl⟩
  | (k, x) :: m => by
    obtain ⟨a, h1, h2⟩ := calls_plain num n x
    obtain ⟨b, h3, h4⟩ := mapCalls_plain num n m
    refine ⟨.str k :: (a ++ b), ?_, by simp [opsOfMap, h2, h4, jsonOps]⟩
    simp only [payloadCalls.mapCalls, pathText, next_none, h1, h3, Out.bind_ok]
    simp
end

/-! ## Maps -/

theorem get_filterMap {f : Bytes → Val → Option Val} {m : List (Bytes × Val)} (hs : AMap.Sorted m) (k : Bytes) :
    AMap.get (m.filterMap fun x => (f x.1 x.2).map fun y => (x.1, y)) k = (AMap.get m k).bind (f k) := by
  induction m with
  | nil => rfl
  | cons x r ih =>
    obtain ⟨k', v⟩ := x
    simp only [List.filterMap_cons, AMap.get]
    have ih := ih hs.2
    cases hf : f k' v with
    | none =>
      simp only [Option.map_none]
      by_cases e : k' = k
      · subst e
        rw [if_pos rfl, ih, AMap.get_none_of_above hs.1]
        simp [hf]
      · rw [if_neg e, ih]
    | some y =>
      simp only [Option.map_some, AMap.get]
      by_cases e : k' = k
      · subst e; simp [hf]
      · rw [if_neg e, if_neg e, ih]

theorem sorted_filterMap {f : Bytes → Val → Option Val} {m : List (Bytes × Val)} (hs : AMap.Sorted m) :
    AMap.Sorted (m.filterMap fun x => (f x.1 x.2).map fun y => (x.1, y)) := by
  induction m with
  | nil => trivial
  | cons x r ih =>
    obtain ⟨k', v⟩ := x
    simp only [List.filterMap_cons]
    cases f k' v with
    | none => exact ih hs.2
    | some y =>
      refine ⟨?_, ih hs.2⟩
      intro p hp
      simp only [List.mem_filterMap, Option.map_eq_some_iff] at hp
      obtain ⟨a, ha, _, _, rfl⟩ := hp
      exact hs.1 a ha

/-- The loop over the members of a map. -/
theorem mapCalls_ok {num : Bytes → Option UInt64} {n : UInt64} {l d : Option VPath} {f : Bytes → Val → Option Val}
    {m : List (Bytes × Val)}
    (h : ∀ x ∈ m, if pathText d = some x.1 ∧ d.map List.tail = some [] then f x.1 x.2 = none
      else ∃ y, f x.1 x.2 = some y ∧
        Emits (payloadCalls num n x.2 (next (pathText l = some x.1) l) (next (pathText d = some x.1) d)) y) :
    ∃ cs, payloadCalls.mapCalls num n m l d = .ok cs ∧
      cs.flatMap jsonOps = opsOfMap (m.filterMap fun x => (f x.1 x.2).map fun y => (x.1, y)) := by
  induction m with
  | nil => exact ⟨_, rfl, rfl⟩
  | cons x r ih =>
    obtain ⟨cs, h1, h2⟩ := ih (fun y hy => h y (by simp [hy]))
    have hx := h x (by simp)
    simp only [payloadCalls.mapCalls, List.filterMap_cons]
    by_cases hc : pathText d = some x.1 ∧ d.map List.tail = some []
    · rw [if_pos hc] at hx
      rw [if_pos hc, hx]
      exact ⟨cs, h1, h2⟩
    · rw [if_neg hc] at hx
      obtain ⟨y, hy, a, h3, h4⟩ := hx
      rw [if_neg hc, hy, h3, h1]
      exact ⟨.str x.1 :: (a ++ cs), rfl, by simp [opsOfMap, jsonOps, h4, h2]⟩

/-- The loop over the elements of a list, on the data path only. -/
theorem listCalls_ok {num : Bytes → Option UInt64} {n : UInt64} {i : UInt32} {q : VPath} {xs : List Val} {j : Nat} {y : Val}
    (h : ∀ x, j ≤ i.toNat → xs[i.toNat - j]? = some x → Emits (payloadCalls num n x none (some q)) y) :
    ∃ cs, payloadCalls.listCalls num n j xs none none (some (.index i :: q)) = .ok cs ∧
      cs.flatMap jsonOps = opsOfList (if j ≤ i.toNat then xs.set (i.toNat - j) y else xs) := by
  induction xs generalizing j with
  | nil => exact ⟨_, rfl, by simp [opsOfList]⟩
  | cons x r ih =>
    have hi : i.toUInt64.toNat = i.toNat := by simp
    obtain ⟨cs, h1, h2⟩ := @ih (j + 1) (fun z hj hz => h z (by omega) (by
      rw [show i.toNat - j = (i.toNat - (j + 1)) + 1 by omega, List.getElem?_cons_succ]; exact hz))
    have hd : pathNum num (some (.index i :: q)) = .ok (some i.toUInt64) := rfl
    simp only [payloadCalls.listCalls, hd, Out.bind_ok, next_none, Option.map_some, hi, Option.some.injEq]
    by_cases hj : i.toNat = j
    · obtain ⟨a, h3, h4⟩ := h x (by omega) (by rw [hj]; simp)
      have e : next (decide (i.toNat = j)) (some (.index i :: q)) = some q := by simp [hj, next]
      rw [e, h3, h1]
      refine ⟨a ++ cs, rfl, ?_⟩
      rw [if_neg (by omega)] at h2
      rw [if_pos (by omega), hj, Nat.sub_self]
      simp [opsOfList, h4, h2]
    · obtain ⟨a, h3, h4⟩ := calls_plain num n x
      have e : next (decide (i.toNat = j)) (some (.index i :: q)) = none := by simp [hj, next]
      rw [e, h3, h1]
      refine ⟨a ++ cs, rfl, ?_⟩
      by_cases hlt : j ≤ i.toNat
      · rw [if_pos (by omega)] at h2
        rw [if_pos hlt, show i.toNat - j = (i.toNat - (j + 1)) + 1 by omega, List.set_cons_succ]
        simp [opsOfList, h4, h2]
      · rw [if_neg (by omega)] at h2
        rw [if_neg hlt]
        simp [opsOfList, h4, h2]

/-! ## The whole header -/

theorem missing_ok {n : UInt64} {e : PathElem} {q : VPath} (hm : NoMaxIndex q) :
    Emits (missing n (some (e :: q))) (setPath .null q (.uint n)).1 := by
  by_cases hq : q = []
  · subst hq; exact ⟨_, rfl, rfl⟩
  · obtain ⟨t, ht⟩ := setPath_null_succeeds hm (.uint n)
    simp only [missing]
    rw [if_pos hq, ht]
    exact ⟨_, rfl, valTree_ops t⟩

def size : Option VPath → Nat
  | none => 0
  | some q => q.length + 1

theorem size_next {l : Option VPath} (h : l ≠ some []) (b : Bool) : size (next b l) ≤ size l - 1 := by
  cases b with
  | false => simp [next, size]
  | true => match l, h with
    | none, _ => simp [next, size]
    | some (e :: q), _ => simp [next, size]

theorem size_pos {l : Option VPath} (h : l ≠ none) : 0 < size l := by
  cases l with
  | none => exact absurd rfl h
  | some q => simp [size]

theorem next_some {b : Bool} {l : Option VPath} {q : VPath} (hl : l ≠ some []) (h : next b l = some q) :
    b = true ∧ ∃ e, l = some (e :: q) := by
  cases b with
  | false => simp [next] at h
  | true => match l, hl with
    | none, _ => simp [next] at h
    | some (e :: r), _ => simp [next] at h; subst h; exact ⟨rfl, e, rfl⟩

/-- Entries of a map without the value at a path. -/
theorem withoutO_map {m : List (Bytes × Val)} (hs : AMap.Sorted m) {d : Option VPath} (hd : d ≠ some [])
    (hD : ∀ q, d = some q → (getPath? (.map m) q).isSome) :
    ∃ m2, withoutO (.map m) d = .map m2 ∧ AMap.Sorted m2 ∧
      ∀ k, AMap.get m2 k = if pathText d = some k ∧ d.map List.tail = some [] then none
        else (AMap.get m k).map fun x => withoutO x (next (pathText d = some k) d) := by
  match d, hd with
  | none, _ => exact ⟨m, rfl, hs, fun k => by simp [pathText, next, withoutO]⟩
  | some (e :: q), _ =>
    have hg := hD _ rfl
    rw [getPath?_cons] at hg
    cases e with
    | index i => simp [getElem?, getIndex?] at hg
    | key k2 =>
      cases hc : AMap.get m k2 with
      | none => simp [getElem?, getKey?, hc] at hg
      | some c =>
        have hc' : getElem? (.map m) (.key k2) = some c := hc
        cases q with
        | nil =>
          refine ⟨AMap.erase m k2, by simp [withoutO, without, hc'], AMap.sorted_erase hs _, fun k => ?_⟩
          by_cases hk : k = k2
          · subst hk
            rw [AMap.get_erase_self hs, if_pos (by simp [pathText, elemText])]
          · rw [AMap.get_erase_other _ _ _ hk, if_neg (by simp [pathText, elemText, Ne.symm hk])]
            simp [pathText, elemText, Ne.symm hk, next, withoutO]
        | cons e' q =>
          refine ⟨AMap.set m k2 (without c (e' :: q)), by simp [withoutO, without, hc', putElem],
            AMap.sorted_set hs _ _, fun k => ?_⟩
          rw [if_neg (by simp)]
          by_cases hk : k = k2
          · subst hk
            rw [AMap.get_set_self, hc]
            simp [pathText, elemText, next, withoutO]
          · rw [AMap.get_set_other _ _ _ _ hk]
            simp [pathText, elemText, Ne.symm hk, next, withoutO]

theorem payloadCalls_hdr (num : Bytes → Option UInt64) (n : UInt64) (N : Nat) : ∀ (v : Val) (l d : Option VPath),
    size l + size d ≤ N → v.WF →
    (∀ q, l = some q → MapsTo v q ∧ NoMaxIndex q) → (∀ q, d = some q → (getPath? v q).isSome) →
    (∀ q r, l = some q → d = some r → Diverge q r) → Emits (payloadCalls num n v l d) (hdr n v l d) := by
  induction N with
  | zero =>
    intro v l d hN _ _ _ _
    cases l with
    | some q => simp [size] at hN
    | none =>
      cases d with
      | some q => simp [size] at hN
      | none => exact calls_plain num n v
  | succ N ih =>
    intro v l d hN hw hL hD hLD
    by_cases hl : l = some []
    · subst hl
      have : payloadCalls num n v (some []) d = .ok [.uint n] := by
        cases v <;> simp [payloadCalls, early]
      rw [this]
      exact ⟨_, rfl, rfl⟩
    by_cases hd : d = some []
    · subst hd
      have : payloadCalls num n v l (some []) = .ok [.null] := by
        cases v <;> simp [payloadCalls, early, hl]
      rw [this]
      have e : hdr n v l (some []) = .null := by
        cases l with
        | none => simp [hdr, withoutO, without, lenO]
        | some q => cases q with
          | nil => exact absurd rfl hl
          | cons e q => simp [hdr, withoutO, without, lenO, lenTree]
      rw [e]
      exact ⟨_, rfl, rfl⟩
    have he : early n l d = none := by simp [early, hl, hd]
    by_cases hboth : l = none ∧ d = none
    · rw [hboth.1, hboth.2]; exact calls_plain num n v
    cases v with
    | list xs =>
      have hl0 : l = none := by
        cases l with
        | none => rfl
        | some q => cases q with
          | nil => exact absurd rfl hl
          | cons e q => exact absurd (hL _ rfl).1 (by cases e <;> simp [MapsTo])
      subst hl0
      cases d with
      | none => exact absurd ⟨rfl, rfl⟩ hboth
      | some q =>
        cases q with
        | nil => exact absurd rfl hd
        | cons e q =>
          have hg := hD _ rfl
          rw [getPath?_cons] at hg
          cases e with
          | key k => simp [getElem?, getKey?] at hg
          | index i =>
            cases hc : getElem? (.list xs) (.index i) with
            | none => rw [hc] at hg; simp at hg
            | some c =>
              rw [hc] at hg
              have hcw : c.WF := getElem?_wf hw hc
              obtain ⟨cs, h1, h2⟩ := @listCalls_ok num n i q xs 0 (without c q) (by
                intro x _ hx
                simp only [Nat.sub_zero] at hx
                simp only [getElem?, getIndex?] at hc
                rw [hc] at hx
                cases hx
                exact ih c none (some q) (by simp [size] at hN ⊢; omega) hcw (by simp) (by simpa using hg) (by simp))
              rw [if_pos (by omega), Nat.sub_zero] at h2
              have e : hdr n (.list xs) none (some (.index i :: q)) = .list (xs.set i.toNat (without c q)) := by
                simp only [hdr, lenO, withoutO, without, hc]
                rfl
              rw [e]
              exact emits_list he rfl h1 rfl (by simpa using h2)
    | map m =>
      have hs : AMap.Sorted m := by rw [Val.WF] at hw; exact hw.1
      have hmem : ∀ x ∈ m, x.2.WF := by rw [Val.WF, WFMap_iff] at hw; exact hw.2
      -- the value written for each member
      have hcalls := @mapCalls_ok num n l d
        (fun k x => if pathText d = some k ∧ d.map List.tail = some [] then none
          else some (hdr n x (next (pathText l = some k) l) (next (pathText d = some k) d))) m (by
        intro x hx
        split
        · rfl
        · refine ⟨_, rfl, ?_⟩
          have hx' : AMap.get m x.1 = some x.2 := AMap.get_of_mem hs hx
          apply ih
          · have h1 := size_next hl (pathText l = some x.1)
            have h2 := size_next hd (pathText d = some x.1)
            have : 0 < size l ∨ 0 < size d := by
              by_cases hln : l = none
              · exact .inr (size_pos fun h => hboth ⟨hln, h⟩)
              · exact .inl (size_pos hln)
            omega
          · exact hmem x hx
          · intro q hq
            obtain ⟨hb, e, rfl⟩ := next_some hl hq
            have hM := hL _ rfl
            cases e with
            | index i => simp [MapsTo] at hM
            | key k =>
              simp only [pathText, elemText, Option.some.injEq, decide_eq_true_eq] at hb
              subst hb
              simp only [MapsTo, hx'] at hM
              exact ⟨hM.1, fun h => hM.2 (by simp [h])⟩
          · intro q hq
            obtain ⟨hb, e, rfl⟩ := next_some hd hq
            have hM := hD _ rfl
            rw [getPath?_cons] at hM
            cases e with
            | index i => simp [getElem?, getIndex?] at hM
            | key k =>
              simp only [pathText, elemText, Option.some.injEq, decide_eq_true_eq] at hb
              subst hb
              simpa [getElem?, getKey?, hx'] using hM
          · intro q r hq hr
            obtain ⟨hb, e, rfl⟩ := next_some hl hq
            obtain ⟨hb', e', rfl⟩ := next_some hd hr
            have hM := (hL _ rfl).1
            have hM' := hD _ rfl
            rw [getPath?_cons] at hM'
            have hdv := hLD _ _ rfl rfl
            cases e with
            | index i => simp [MapsTo] at hM
            | key k => cases e' with
              | index i => simp [getElem?, getIndex?] at hM'
              | key k' =>
                simp only [pathText, elemText, Option.some.injEq, decide_eq_true_eq] at hb hb'
                subst hb; subst hb'
                exact diverge_cons hdv)
      obtain ⟨cs, h1, h2⟩ := hcalls
      obtain ⟨m2, g1, g2, g3⟩ := withoutO_map hs hd hD
      have hsf := @sorted_filterMap (fun k x => if pathText d = some k ∧ d.map List.tail = some [] then none
          else some (hdr n x (next (pathText l = some k) l) (next (pathText d = some k) d))) m hs
      have hgf := fun k => @get_filterMap (fun k x => if pathText d = some k ∧ d.map List.tail = some [] then none
          else some (hdr n x (next (pathText l = some k) l) (next (pathText d = some k) d))) m hs k
      match l, hl with
      | none, _ =>
        have e : hdr n (.map m) none d = .map m2 := by simp [hdr, g1, lenO]
        rw [e]
        refine emits_map he h1 rfl ?_
        rw [List.append_nil, h2]
        congr 1
        apply AMap.ext hsf g2
        intro k
        rw [hgf, g3]
        by_cases hc : pathText d = some k ∧ d.map List.tail = some []
        · rw [if_pos hc]; simp [hc]
        · rw [if_neg hc]
          simp only [hc, if_false, next_none]
          cases AMap.get m k <;> rfl
      | some (.index i :: q), _ => exact absurd (hL _ rfl).1 (by simp [MapsTo])
      | some (.key k0 :: q), _ =>
        have hM := hL _ rfl
        have hmq : NoMaxIndex q := fun h => hM.2 (by simp [h])
        have hnot : ¬ (pathText d = some k0 ∧ d.map List.tail = some []) := by
          rintro ⟨h3, h4⟩
          match d, hd with
          | none, _ => cases h3
          | some (e :: r), _ =>
            simp only [Option.map_some, List.tail_cons, Option.some.injEq] at h4
            subst h4
            have hM' := hD _ rfl
            rw [getPath?_cons] at hM'
            cases e with
            | index i => simp [getElem?, getIndex?] at hM'
            | key k' =>
              simp only [pathText, elemText, Option.some.injEq] at h3
              subst h3
              exact (hLD _ _ rfl rfl).2 (by simp)
        cases hc : AMap.get m k0 with
        | none =>
          have hg2 : AMap.get m2 k0 = none := by rw [g3, if_neg hnot, hc]; rfl
          have e : hdr n (.map m) (some (.key k0 :: q)) d = .map (m2 ++ [(k0, (setPath .null q (.uint n)).1)]) := by
            simp [hdr, g1, lenO, lenTree, hg2]
          rw [e]
          obtain ⟨ms, h3, h4⟩ := @missing_ok n (.key k0) q hmq
          refine emits_map he h1 (tl := .str k0 :: ms) ?_ ?_
          · simp [mapTail, pathText, elemText, hasNext, hc, h3]
          · have ops_append : ∀ a b : List (Bytes × Val), opsOfMap (a ++ b) = opsOfMap a ++ opsOfMap b := by
              intro a b
              induction a with
              | nil => rfl
              | cons x a ih => simp [opsOfMap, ih]
            rw [List.flatMap_append, h2, ops_append]
            congr 1
            · congr 1
              apply AMap.ext hsf g2
              intro k
              rw [hgf, g3]
              by_cases hcc : pathText d = some k ∧ d.map List.tail = some []
              · rw [if_pos hcc]; simp [hcc]
              · rw [if_neg hcc]
                simp only [hcc, if_false]
                by_cases hk : k0 = k
                · subst hk; rw [hc]; rfl
                · simp only [pathText, elemText, Option.some.injEq, hk, decide_false, next]
                  cases AMap.get m k <;> rfl
            · simp [opsOfMap, jsonOps, h4]
        | some c =>
          have hg2 : AMap.get m2 k0 = some (withoutO c (next (pathText d = some k0) d)) := by
            rw [g3, if_neg hnot, hc]; rfl
          have e : hdr n (.map m) (some (.key k0 :: q)) d =
              .map (AMap.set m2 k0 (lenTree n (withoutO c (next (pathText d = some k0) d)) q)) := by
            simp [hdr, g1, lenO, lenTree, hg2]
          rw [e]
          refine emits_map he h1 (tl := []) (by simp [mapTail, pathText, elemText, hasNext, hc]) ?_
          rw [List.append_nil, h2]
          congr 1
          apply AMap.ext hsf (AMap.sorted_set g2 _ _)
          intro k
          rw [hgf]
          by_cases hk : k0 = k
          · subst hk
            rw [AMap.get_set_self, hc]
            simp only [Option.bind_some, hnot, if_false]
            simp [pathText, elemText, next, hdr, lenO]
          · rw [AMap.get_set_other _ _ _ _ (Ne.symm hk), g3]
            by_cases hcc : pathText d = some k ∧ d.map List.tail = some []
            · rw [if_pos hcc]; simp [hcc]
            · rw [if_neg hcc]
              simp only [hcc, if_false]
              simp only [pathText, elemText, Option.some.injEq, hk, decide_false]
              cases AMap.get m k <;> rfl
    | _ =>
      exfalso
      cases l with
      | some q => cases q with
        | nil => exact hl rfl
        | cons e q => exact absurd (hL _ rfl).1 (by cases e <;> simp [MapsTo])
      | none => cases d with
        | none => exact hboth ⟨rfl, rfl⟩
        | some q => cases q with
          | nil => exact hd rfl
          | cons e q =>
            have := hD _ rfl
            rw [getPath?_cons] at this
            cases e <;> simp [getElem?, getIndex?, getKey?] at this

end Verif.Payload
