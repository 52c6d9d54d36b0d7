import Verif.Build.Model
/-!
# C10: values built from parser events
-/

namespace Verif.Build

/-! ## Specification: event trees -/

/-- The events of one value: a scalar, a list of values or a map of key/value pairs in the
order received, in which a key may occur several times. -/
inductive ETree where
  | scalar (v : Val)
  | list (xs : List ETree)
  | map (kvs : List (Bytes × ETree))

mutual
/-- The callbacks a parser makes for an event tree (map keys arrive as string scalars). -/
def ETree.events : ETree → List PEv
  | .scalar v => [.scalar v]
  | .list xs => .beginList :: (eventsList xs ++ [.endList])
  | .map kvs => .beginMap :: (eventsMap kvs ++ [.endMap])
def eventsList : List ETree → List PEv
  | [] => []
  | x :: xs => x.events ++ eventsList xs
def eventsMap : List (Bytes × ETree) → List PEv
  | [] => []
  | (k, x) :: kvs => .scalar (.str k) :: (x.events ++ eventsMap kvs)
end

mutual
/-- `Denotes e v`: what value an event tree stands for, said by look-ups: a scalar is itself, a
list has the elements in order, and a map has, for each key, the *last* value received. -/
inductive Denotes : ETree → Val → Prop
  | scalar (v : Val) : Denotes (.scalar v) v
  | list {xs vs} : DenotesList xs vs → Denotes (.list xs) (.list vs)
  | map {kvs ws m} : DenotesMap kvs ws → AMap.Sorted m →
      (∀ k, AMap.get m k = (ws.reverse.find? (fun p => p.1 == k)).map (·.2)) →
      Denotes (.map kvs) (.map m)
inductive DenotesList : List ETree → List Val → Prop
  | nil : DenotesList [] []
  | cons {x v xs vs} : Denotes x v → DenotesList xs vs → DenotesList (x :: xs) (v :: vs)
inductive DenotesMap : List (Bytes × ETree) → List (Bytes × Val) → Prop
  | nil : DenotesMap [] []
  | cons {k x v kvs ws} : Denotes x v → DenotesMap kvs ws → DenotesMap ((k, x) :: kvs) ((k, v) :: ws)
end

/-! ## The built value -/

/-- Inserting pairs from left to right. -/
def insertAll (m : List (Bytes × Val)) : List (Bytes × Val) → List (Bytes × Val)
  | [] => m
  | (k, v) :: ws => insertAll (AMap.set m k v) ws

mutual
def ETree.value : ETree → Val
  | .scalar v => v
  | .list xs => .list (valueList xs)
  | .map kvs => .map (insertAll [] (valueMap kvs))
def valueList : List ETree → List Val
  | [] => []
  | x :: xs => x.value :: valueList xs
def valueMap : List (Bytes × ETree) → List (Bytes × Val)
  | [] => []
  | (k, x) :: kvs => (k, x.value) :: valueMap kvs
end

theorem events_append (ft : UInt64 → Bytes) (s : BState) (a b : List PEv) :
    events ft s (a ++ b) = (events ft s a >>= fun s' => events ft s' b) := by
  induction a generalizing s with
  | nil => rfl
  | cons x xs ih =>
    simp only [List.cons_append, events]
    cases event ft s x with
    | ok s' => simp only [Out.bind_ok]; exact ih s'
    | throw e => rfl
    | ub => rfl

theorem sorted_insertAll {m : List (Bytes × Val)} (h : AMap.Sorted m) (ws : List (Bytes × Val)) :
    AMap.Sorted (insertAll m ws) := by
  induction ws generalizing m with
  | nil => exact h
  | cons w ws ih => exact ih (AMap.sorted_set h _ _)

theorem get_insertAll {m : List (Bytes × Val)} (h : AMap.Sorted m) (ws : List (Bytes × Val)) (k : Bytes) :
    AMap.get (insertAll m ws) k = ((ws.reverse.find? (fun p => p.1 == k)).map (·.2)).or (AMap.get m k) := by
  induction ws generalizing m with
  | nil => simp [insertAll]
  | cons w ws ih =>
    obtain ⟨k', v⟩ := w
    simp only [insertAll, List.reverse_cons, List.find?_append]
    rw [ih (AMap.sorted_set h _ _)]
    cases hf : ws.reverse.find? (fun p => p.1 == k) with
    | some p => simp
    | none =>
      by_cases hk : k' = k
      · subst hk; simp [AMap.get_set_self]
      · simp [AMap.get_set_other, hk, Ne.symm hk]

/-- The handler below a finished value is not a root handler outside a document. -/
def Ready : List Frame → Prop
  | [] => False
  | .root _ seen :: _ => seen = true
  | _ => True

/-- The handlers after receiving a value. -/
def receive : List Frame → Val → List Frame
  | .root _ s :: r, v => .root v s :: r
  | .map m (some k) :: r, v => .map (AMap.set m k v) none :: r
  | .list xs :: r, v => .list (xs ++ [v]) :: r
  | fs, _ => fs

/-- A value is expected (not a map key). -/
def WantsValue : List Frame → Prop
  | .root _ seen :: _ => seen = true
  | .map _ (some _) :: _ => True
  | .list _ :: _ => True
  | _ => False

theorem setTop_receive (ft : UInt64 → Bytes) {fs : List Frame} {r : Val} {d : Bool} (v : Val) (h : WantsValue fs) :
    setTop ft ⟨fs, r, d⟩ v = .ok ⟨receive fs v, r, d⟩ := by
  match fs, h with
  | .root a b :: rest, h => simp only [WantsValue] at h; subst h; rfl
  | .map m (some k) :: rest, _ => rfl
  | .list xs :: rest, _ => rfl

mutual
theorem tree_events (ft : UInt64 → Bytes) (fs : List Frame) (r : Val) (d : Bool) (h : WantsValue fs) :
    ∀ x : ETree, events ft ⟨fs, r, d⟩ x.events = .ok ⟨receive fs x.value, r, d⟩
  | .scalar v => by
    have hne : fs ≠ [] := by rintro rfl; exact h
    obtain ⟨f, rest, rfl⟩ := List.exists_cons_of_ne_nil hne
    simp only [ETree.events, events, event, setTop_receive ft v h, Out.bind_ok, ETree.value]
  | .list xs => by
    have hne : fs ≠ [] := by rintro rfl; exact h
    obtain ⟨f, rest, rfl⟩ := List.exists_cons_of_ne_nil hne
    simp only [ETree.events, events, event, Out.bind_ok, ETree.value, events_append]
    rw [list_events ft (f :: rest) r d xs []]
    simp only [Out.bind_ok, events, event, finish, Frame.result, setTop_receive ft _ h, List.nil_append]
  | .map kvs => by
    have hne : fs ≠ [] := by rintro rfl; exact h
    obtain ⟨f, rest, rfl⟩ := List.exists_cons_of_ne_nil hne
    simp only [ETree.events, events, event, Out.bind_ok, ETree.value, events_append]
    rw [map_events ft (f :: rest) r d kvs []]
    simp only [Out.bind_ok, events, event, finish, Frame.result, setTop_receive ft _ h]
theorem list_events (ft : UInt64 → Bytes) (fs : List Frame) (r : Val) (d : Bool) :
    ∀ (xs : List ETree) (acc : List Val), events ft ⟨.list acc :: fs, r, d⟩ (eventsList xs) =
      .ok ⟨.list (acc ++ valueList xs) :: fs, r, d⟩
  | [], acc => by simp [eventsList, events, valueList]
  | x :: xs, acc => by
    simp only [eventsList, events_append]
    rw [tree_events ft (.list acc :: fs) r d trivial x]
    simp only [Out.bind_ok, receive]
    rw [list_events ft fs r d xs]
    simp [valueList]
theorem map_events (ft : UInt64 → Bytes) (fs : List Frame) (r : Val) (d : Bool) :
    ∀ (kvs : List (Bytes × ETree)) (m : List (Bytes × Val)),
      events ft ⟨.map m none :: fs, r, d⟩ (eventsMap kvs) =
      .ok ⟨.map (insertAll m (valueMap kvs)) none :: fs, r, d⟩
  | [], m => by simp [eventsMap, events, valueMap, insertAll]
  | (k, x) :: kvs, m => by
    simp only [eventsMap, events, event, setTop, setVal, asString, Out.bind_ok, Out.pure_eq, events_append]
    simp only [Bool.false_eq_true, if_false]
    rw [tree_events ft (.map m (some k) :: fs) r d trivial x]
    simp only [Out.bind_ok, receive]
    rw [map_events ft fs r d kvs]
    simp [valueMap, insertAll]
end

mutual
theorem value_denotes : ∀ x : ETree, Denotes x x.value
  | .scalar v => .scalar v
  | .list xs => .list (valueList_denotes xs)
  | .map kvs => by
    refine .map (valueMap_denotes kvs) (sorted_insertAll (m := []) trivial _) ?_
    intro k
    rw [get_insertAll (m := []) trivial]
    simp [AMap.get]
theorem valueList_denotes : ∀ xs : List ETree, DenotesList xs (valueList xs)
  | [] => .nil
  | x :: xs => .cons (value_denotes x) (valueList_denotes xs)
theorem valueMap_denotes : ∀ kvs : List (Bytes × ETree), DenotesMap kvs (valueMap kvs)
  | [] => .nil
  | (k, x) :: kvs => .cons (value_denotes x) (valueMap_denotes kvs)
end

mutual
theorem Denotes.unique : ∀ {x : ETree} {v : Val}, Denotes x v → v = x.value
  | _, _, .scalar v => rfl
  | _, _, .list h => by rw [DenotesList.unique h]; rfl
  | _, _, .map (kvs := kvs) (m := m) h hs hg => by
    have := DenotesMap.unique h
    subst this
    simp only [ETree.value]
    congr 1
    refine AMap.ext hs (sorted_insertAll (m := []) trivial _) ?_
    intro k
    rw [hg, get_insertAll (m := []) trivial]
    simp [AMap.get]
theorem DenotesList.unique : ∀ {xs : List ETree} {vs : List Val}, DenotesList xs vs → vs = valueList xs
  | _, _, .nil => rfl
  | _, _, .cons h hs => by rw [Denotes.unique h, DenotesList.unique hs]; rfl
theorem DenotesMap.unique : ∀ {xs : List (Bytes × ETree)} {vs : List (Bytes × Val)}, DenotesMap xs vs → vs = valueMap xs
  | _, _, .nil => rfl
  | _, _, .cons h hs => by rw [Denotes.unique h, DenotesMap.unique hs]; rfl
end

/-- C10.  A parser that announces a document and delivers the events of one value builds
exactly the value those events denote, and is then finished. -/
theorem build_document (ft : UInt64 → Bytes) (x : ETree) (v : Val) (h : Denotes x v) :
    events ft BState.init (.beginDoc :: (x.events ++ [.endDoc])) = .ok ⟨[], v, true⟩ := by
  simp only [events, BState.init, event, Out.bind_ok, events_append]
  rw [tree_events ft _ _ _ (by simp [WantsValue])]
  simp [receive, events, event, finish, Frame.result, h.unique]

/-- C10.  Without document events (the property-list parsers) the same value results, as soon
as its last event is delivered. -/
theorem build_bare (ft : UInt64 → Bytes) (x : ETree) (v : Val) (h : Denotes x v) :
    events ft BState.init x.events = .ok ⟨[], v, true⟩ := by
  rw [h.unique]
  cases x with
  | scalar v => rfl
  | list xs =>
    simp only [ETree.events, events, event, BState.init, Out.bind_ok, events_append]
    rw [list_events]
    simp [events, event, finish, setTop, setVal, Frame.result, ETree.value]
  | map kvs =>
    simp only [ETree.events, events, event, BState.init, Out.bind_ok, events_append]
    rw [map_events]
    simp [events, event, finish, setTop, setVal, Frame.result, ETree.value]

/-- Every event tree denotes exactly one value, so the two theorems above always apply. -/
theorem denotes_exists_unique (x : ETree) : ∃ v, Denotes x v ∧ ∀ w, Denotes x w → w = v :=
  ⟨x.value, value_denotes x, fun _ h => h.unique⟩

/-- `{"a": 1, "b": [], "a": 2}`: the last `a` wins. -/
example (ft) : events ft BState.init (.beginDoc :: ((ETree.map [([97], .scalar (.int 1)), ([98], .list []),
      ([97], .scalar (.int 2))]).events ++ [.endDoc])) =
    .ok ⟨[], .map [([97], .int 2), ([98], .list [])], true⟩ :=
  build_document ft _ _ (value_denotes (.map [([97], .scalar (.int 1)), ([98], .list []), ([97], .scalar (.int 2))]))

mutual
/-- The events an emitter produces for a value, as an event tree. -/
def treeOf : Val → ETree
  | .list xs => .list (treeOfList xs)
  | .map m => .map (treeOfMap m)
  | v => .scalar v
def treeOfList : List Val → List ETree
  | [] => []
  | x :: xs => treeOf x :: treeOfList xs
def treeOfMap : List (Bytes × Val) → List (Bytes × ETree)
  | [] => []
  | (k, x) :: m => (k, treeOf x) :: treeOfMap m
end

theorem insertAll_append (m a b : List (Bytes × Val)) :
    insertAll m (a ++ b) = insertAll (insertAll m a) b := by
  induction a generalizing m with
  | nil => rfl
  | cons x xs ih => exact ih _

theorem insertAll_sorted_acc {m acc : List (Bytes × Val)} (h : AMap.Sorted m)
    (ha : ∀ p ∈ acc, ∀ q ∈ m, keyLt p.1 q.1 = true) : insertAll acc m = acc ++ m := by
  induction m generalizing acc with
  | nil => simp [insertAll]
  | cons x xs ih =>
    obtain ⟨k, v⟩ := x
    simp only [insertAll]
    rw [AMap.set_append_last (fun p hp => ha p hp (k, v) (by simp)), ih h.2]
    · simp
    · intro p hp q hq
      simp only [List.mem_append, List.mem_cons, List.not_mem_nil, or_false] at hp
      rcases hp with hp | rfl
      · exact ha p hp q (by simp [hq])
      · exact h.1 q hq

theorem insertAll_sorted {m : List (Bytes × Val)} (h : AMap.Sorted m) : insertAll [] m = m :=
  insertAll_sorted_acc h (by simp)

mutual
theorem treeOf_value : ∀ v : Val, v.WF → (treeOf v).value = v
  | .list xs, h => by simp only [treeOf, ETree.value]; rw [treeOfList_value xs (by simpa [Val.WF] using h)]
  | .map m, h => by
    simp only [Val.WF] at h
    simp only [treeOf, ETree.value]
    rw [treeOfMap_value m h.2, insertAll_sorted h.1]
  | .null, _ => rfl
  | .bool _, _ => rfl
  | .int _, _ => rfl
  | .uint _, _ => rfl
  | .flt _, _ => rfl
  | .str _, _ => rfl
  | .blob _, _ => rfl
theorem treeOfList_value : ∀ xs : List Val, WFList xs → valueList (treeOfList xs) = xs
  | [], _ => rfl
  | x :: xs, h => by
    simp only [WFList] at h
    simp [treeOfList, valueList, treeOf_value x h.1, treeOfList_value xs h.2]
theorem treeOfMap_value : ∀ m : List (Bytes × Val), WFMap m → valueMap (treeOfMap m) = m
  | [], _ => rfl
  | (k, x) :: m, h => by
    simp only [WFMap] at h
    simp [treeOfMap, valueMap, treeOf_value x h.1, treeOfMap_value m h.2]
end

/-- C10.  Replaying the events of an existing value (keys in map order) rebuilds that value. -/
theorem build_replay (ft : UInt64 → Bytes) (v : Val) (h : v.WF) :
    events ft BState.init (.beginDoc :: ((treeOf v).events ++ [.endDoc])) = .ok ⟨[], v, true⟩ :=
  build_document ft _ _ (by have := value_denotes (treeOf v); rwa [treeOf_value v h] at this)

example (ft) := build_replay ft (.map [([97], .list [.int 1, .null]), ([98], .map [])])
  (by simp [Val.WF, WFMap, WFList, AMap.Sorted, AMap.above, keyLt])

end Verif.Build
