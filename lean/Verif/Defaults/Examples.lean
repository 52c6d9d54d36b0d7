import Verif.Defaults.Props
/-!
# Concrete cases, and what does not hold
-/

namespace Verif.Defaults
open Verif Schema Loader

/-- No base loader, and a small schema in the place of the one for schemas. -/
def exBuiltin : Bytes × Val := ([120, 58], .map [])

/-- {"a": {"default": 1}, "b": {"properties": {"c": {"default": "x"}}}} below "properties" -/
def exSchema : Val := .map [(kProperties, .map [([97], .map [(kDefault, .uint 1)]),
  ([98], .map [(kProperties, .map [([99], .map [(kDefault, .str [120])])])])])]

/-- {"a": 0, "d": true} -/
def exDoc : Val := .map [([97], .uint 0), ([100], .bool true)]
/-- {"a": 0, "b": {"c": "x"}, "d": true} -/
def exDoc' : Val := .map [([97], .uint 0), ([98], .map [([99], .str [120])]), ([100], .bool true)]

theorem exUsed (doc : Val) : Used 64 exBuiltin [] exSchema doc exSchema := rfl

theorem exRun : addSchemaDefaults 64 exBuiltin [] 5 exSchema exDoc = some (exDoc', .ok ()) := by rfl

theorem exProper {schema doc : Val} (hs : schema.WF) (hd : doc.WF) : Proper exBuiltin [] schema doc :=
  ⟨by simp [exBuiltin, Val.WF, WFMap, AMap.Sorted], by simp, hs, hd⟩

theorem exSchema_wf : exSchema.WF := by
  simp [exSchema, Val.WF, WFMap, AMap.Sorted, AMap.above]
  decide

theorem exDoc_wf : exDoc.WF := by
  simp [exDoc, Val.WF, WFMap, AMap.Sorted, AMap.above]
  decide

example : Keeps exDoc exDoc' := defaults_keep (exProper exSchema_wf exDoc_wf) exRun
example : exDoc'.WF := defaults_proper (exProper exSchema_wf exDoc_wf) exRun

theorem exAbsolute : absolute exSchema = exSchema := rfl

/-- The default for "c" inside "b". -/
theorem exDefault (get : Bytes → Out Val) : DefaultAt get exSchema [.key [98], .key [99]] (.str [120]) :=
  .property rfl (.tail _ (.head _)) (.property rfl (.head _) (.own rfl))

/-- The only defaults of `exSchema`. -/
theorem exOnly {get : Bytes → Out Val} {q : VPath} {d : Val} (h : DefaultAt get exSchema q d) :
    (q = [.key [97]] ∧ d = .uint 1) ∨ (q = [.key [98], .key [99]] ∧ d = .str [120]) := by
  have none : ∀ {m : List (Bytes × Val)} {k : Bytes}, k ∈ combining → AMap.get m k = none → ∀ ss, AMap.get m k ≠ some (.list ss) := by
    intro m k _ h ss h'; rw [h] at h'; cases h'
  have leaf : ∀ {d : Val} {q : VPath} {d' : Val}, DefaultAt get (.map [(kDefault, d)]) q d' → q = [] ∧ d' = d := by
    intro d q d' h
    cases h with
    | own h => cases h; exact ⟨rfl, rfl⟩
    | ref h => cases h
    | property h => cases h
    | item h => cases h
    | items h => cases h
    | member hk h =>
      simp only [combining, List.mem_cons, List.not_mem_nil, or_false] at hk
      rcases hk with rfl | rfl | rfl <;> cases h
  have mid : ∀ {ps : List (Bytes × Val)} {q : VPath} {d' : Val}, DefaultAt get (.map [(kProperties, .map ps)]) q d' →
      ∃ k s r, (k, s) ∈ ps ∧ q = .key k :: r ∧ DefaultAt get s r d' := by
    intro ps q d' h
    cases h with
    | own h => cases h
    | ref h => cases h
    | property h h1 h2 => cases h; exact ⟨_, _, _, h1, rfl, h2⟩
    | item h => cases h
    | items h => cases h
    | member hk h =>
      simp only [combining, List.mem_cons, List.not_mem_nil, or_false] at hk
      rcases hk with rfl | rfl | rfl <;> cases h
  obtain ⟨k, s, r, h1, rfl, h2⟩ := mid h
  simp only [List.mem_cons, List.not_mem_nil, or_false, Prod.mk.injEq] at h1
  rcases h1 with ⟨rfl, rfl⟩ | ⟨rfl, rfl⟩
  · obtain ⟨rfl, rfl⟩ := leaf h2
    exact .inl ⟨rfl, rfl⟩
  · obtain ⟨k, s, r, h1, rfl, h2⟩ := mid h2
    simp only [List.mem_cons, List.not_mem_nil, or_false, Prod.mk.injEq] at h1
    obtain ⟨rfl, rfl⟩ := h1
    obtain ⟨rfl, rfl⟩ := leaf h2
    exact .inr ⟨rfl, rfl⟩

/-- `default_there` on the example. -/
example : getPath? exDoc' [.key [98], .key [99]] = some (.str [120]) := by
  refine default_there (exProper exSchema_wf exDoc_wf) (exUsed exDoc) exRun (exDefault _) (by simp [Scalar, Val.ty]) ?_ rfl ?_ ?_ ?_ ?_
  · intro e he
    simp only [List.mem_cons, List.not_mem_nil, or_false] at he
    rcases he with rfl | rfl <;> exact ⟨_, rfl⟩
  · intro r v hr hv
    match r, hr with
    | [], _ => cases hv; rfl
    | [.key k], h => simp at h; subst h; cases hv
    | [.key k, e], h => simp at h; obtain ⟨rfl, rfl⟩ := h; cases hv
    | _ :: _ :: _ :: _, h => have := h.length_le; simp at this
    | [.index _], h => simp at h
    | [.index _, _], h => simp at h
  · intro r d' h hr
    rcases exOnly h with ⟨rfl, _⟩ | ⟨rfl, rfl⟩
    · simp at hr
    · exact ⟨rfl, rfl⟩
  · intro r i t d' h hr
    rcases exOnly h with ⟨h1, _⟩ | ⟨h1, _⟩
    · have : PathElem.index i ∈ [PathElem.key [97]] := by rw [← h1]; simp
      simp at this
    · have : PathElem.index i ∈ [PathElem.key [98], PathElem.key [99]] := by rw [← h1]; simp
      simp at this
  · intro e t d' h
    rcases exOnly h with ⟨h1, _⟩ | ⟨h1, _⟩ <;> simp at h1

/-- `second_call_partial` on the example. -/
example {n : Nat} {doc'' : Val} {o : Out Unit} (h : addSchemaDefaults 64 exBuiltin [] n exSchema exDoc' = some (doc'', o)) : doc'' = exDoc' :=
  second_call_partial (exProper exSchema_wf exDoc_wf) nofun (exUsed exDoc)
    (fun q d h => by rcases exOnly h with ⟨_, rfl⟩ | ⟨_, rfl⟩ <;> simp [Scalar, Val.ty]) exRun h

/-- `call_ends` on the example. -/
example : ∃ x, ∀ n, height (absolute exSchema) < n → addSchemaDefaults 64 exBuiltin [] n exSchema exDoc = some x :=
  call_ends 64 exBuiltin [] (exUsed exDoc) rfl

/-- `defaults_fail`: a reference that leads nowhere. -/
example : addSchemaDefaults 64 exBuiltin [] 5 (.map [(Schema.kRef, .str [121])]) exDoc = some (exDoc, .throw .runtime) := by rfl
/-- `defaults_fail`: properties that are no map. -/
example : addSchemaDefaults 64 exBuiltin [] 5 (.map [(kProperties, .str [121])]) exDoc = some (exDoc, .throw .unableToConvert) := by rfl
/-- `null_kept`: a null is replaced by a default. -/
example : addSchemaDefaults 64 exBuiltin [] 5 exSchema (.map [([97], .null)]) =
    some (.map [([97], .uint 1), ([98], .map [([99], .str [120])])], .ok ()) := by rfl
/-- `Blocked`: a value that is no map in the place of "b". -/
example : addSchemaDefaults 64 exBuiltin [] 5 exSchema (.map [([98], .uint 7)]) =
    some (.map [([97], .uint 1), ([98], .uint 7)], .ok ()) := by rfl
/-- A null schema: the one the document names; here it names itself through the loader's own schema. -/
example : addSchemaDefaults 64 ([120, 58], exSchema) [] 6 .null (.map [(kSchema, .str [120, 58])]) =
    some (.map [(kSchema, .str [120, 58]), ([97], .uint 1), ([98], .map [([99], .str [120])])], .ok ()) := by rfl

/-! ## What does not hold -/

/-- C69: a second call can add more.  {"default": {}, "properties": {"a": {"default": 1}}} puts an empty map in the place
of a null and stops there; the next call fills the map. -/
theorem second_call_false : ∃ schema doc doc' doc'' : Val,
    addSchemaDefaults 64 exBuiltin [] 5 schema doc = some (doc', .ok ()) ∧
    addSchemaDefaults 64 exBuiltin [] 5 schema doc' = some (doc'', .ok ()) ∧
    getPath? doc' [.key [97]] = none ∧ getPath? doc'' [.key [97]] = some (.uint 1) :=
  ⟨.map [(kDefault, .map []), (kProperties, .map [([97], .map [(kDefault, .uint 1)])])], .null, .map [], .map [([97], .uint 1)],
    by rfl, by rfl, rfl, rfl⟩

/-- C68: the defaults of the properties are not filled in when the document is null (a default-constructed value). -/
theorem null_document_false : addSchemaDefaults 64 exBuiltin [] 5 exSchema .null = some (.null, .ok ()) := by rfl

/-- C68: a single schema in "items" is for all elements, but its default is used for the first one only, and is appended
to an empty list. -/
theorem items_first_only_false :
    addSchemaDefaults 64 exBuiltin [] 5 (.map [(kItems, .map [(kDefault, .uint 5)])]) (.list [.null, .null]) =
      some (.list [.uint 5, .null], .ok ()) ∧
    addSchemaDefaults 64 exBuiltin [] 5 (.map [(kItems, .map [(kDefault, .uint 5)])]) (.list []) =
      some (.list [.uint 5], .ok ()) := ⟨by rfl, by rfl⟩

/-- C67: nulls are put in a list before an element with a default. -/
theorem padding_false :
    addSchemaDefaults 64 exBuiltin [] 5 (.map [(kItems, .list [.map [], .map [(kDefault, .uint 5)]])]) (.list []) =
      some (.list [.null, .uint 5], .ok ()) := by rfl

/-- C66: the filled-in document need not be valid: the defaults of schemas only one of which may hold are all used. -/
theorem one_of_all_used_false :
    addSchemaDefaults 64 exBuiltin [] 6 (.map [(kOneOf, .list [
      .map [(kProperties, .map [([97], .map [(kDefault, .uint 1)])])],
      .map [(kProperties, .map [([98], .map [(kDefault, .uint 2)])])]])]) (.map []) =
      some (.map [([97], .uint 1), ([98], .uint 2)], .ok ()) := by rfl

theorem self_reference (get : Bytes → Out Val) {m : List (Bytes × Val)} {u : Bytes} (h : AMap.get m Schema.kRef = some (.str u))
    (hu : get u = .ok (.map m)) (n : Nat) (doc : Val) (r : VRef) : fill get n (.map m) doc r = none := by
  induction n with
  | zero => rfl
  | succ n ih =>
    rw [fill]
    have : atRef get m doc (fun s => fill get n s doc r) = none := by
      unfold atRef
      rw [show Loader.strAt m Schema.kRef = some u from strAt_eq h]
      dsimp only
      rw [hu]
      exact ih
    rw [this]
    rfl

/-- C70: the schema {"$ref": "#"} makes the call recurse without end, whatever the document. -/
theorem call_never_ends_false (doc : Val) (n : Nat) :
    addSchemaDefaults 64 exBuiltin [] n (.map [(Schema.kRef, .str [35])]) doc = none := by
  have hs : theSchema (fun u => (getSchema 64 [⟨[exBuiltin], none⟩] u).2) (.map [(Schema.kRef, .str [35])]) doc =
      .ok (.map [(Schema.kRef, .str [35])]) := rfl
  unfold addSchemaDefaults
  rw [hs]
  refine self_reference _ (m := [(Schema.kRef, .str [35])]) (u := [35]) rfl ?_ n doc .root
  have h1 : AMap.get (localLayer exBuiltin (.map [(Schema.kRef, .str [35])])).schemas [35] = none := by rfl
  have h2 : AMap.get (localLayer exBuiltin (.map [(Schema.kRef, .str [35])])).schemas (splitUri [35]).1 =
    some (.map [(Schema.kRef, .str [35])]) := by rfl
  have h3 : (splitUri [35]).2 = [] := by rfl
  simp only [getSchema]
  rw [h1]
  dsimp only
  rw [h2, h3]
  exact inside_nil 64 _

end Verif.Defaults
