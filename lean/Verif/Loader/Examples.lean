import Verif.Loader.Lookup
/-!
# C62-C65: concrete cases and findings
-/

namespace Verif.Loader
open Verif Uri Ext

/-- "x:/a" -/
def exUri : Bytes := [120, 58, 47, 97]
/-- "d" -/
def kD : Bytes := [100]
/-- "#s" -/
def hashS : Bytes := [35, 115]

/-- `{"$ref": "b#/d", "d": {"id": "#s"}}` without the reference, and with a nested one:
`{"d": {"$ref": "#/e"}, "e": {"id": "#s"}}`. -/
def exDoc : Val := .map [(kD, .map [(kRef, .str [35, 47, 101])]), ([101], .map [(kId, .str hashS)])]

/-- The document added at "x:/a": its reference becomes "x:/a#/e", its inner schema is known as "x:/a#s". -/
theorem exDoc_norm : norm exUri exDoc =
    .map [(kD, .map [(kRef, .str (exUri ++ [35, 47, 101]))]), ([101], .map [(kId, .str (exUri ++ hashS))])] := by
  have h1 : resolveURI exUri [35, 47, 101] = exUri ++ [35, 47, 101] := by decide
  have h2 : resolveURI exUri hashS = exUri ++ hashS := by decide
  unfold exDoc
  simp only [norm_eq, strAt, AMap.get, normMap, normId, baseOf, AMap.set, h1, h2]
  simp [norm_eq, strAt, AMap.get, normMap, normId, baseOf, AMap.set, h1, h2, kD, kRef, kId, kEnum, norm]

theorem exUri_self : resolveURI exUri [] = exUri := by decide

/-- Adding it to an empty loader. -/
theorem exDoc_added : addSchema [] exUri exDoc =
    [(exUri, norm exUri exDoc), (exUri ++ hashS, .map [(kId, .str (exUri ++ hashS))])] := by
  unfold addSchema found
  dsimp only
  rw [exUri_self, exDoc_norm]
  simp [search, searchMap, addOwn, strAt, AMap.get, insertAll, AMap.set, kD, kRef, kId, kEnum, trusted, exUri, hashS, keyLt]

/-- A new URI, not the document's own, meets the hypotheses of `add_only_own`. -/
example : AMap.get ([] : Schemas) (exUri ++ hashS) = none ∧
    AMap.get (addSchema [] exUri exDoc) (exUri ++ hashS) = some (.map [(kId, .str (exUri ++ hashS))]) := by
  rw [exDoc_added]
  exact ⟨rfl, by simp [AMap.get, exUri, hashS]⟩

/-- A place with a reference, as in `refs_resolved`. -/
example : Place exUri exDoc [.key kD] exUri (.map [(kRef, .str [35, 47, 101])]) ∧
    Base exUri [(kRef, .str [35, 47, 101])] exUri ∧ StrAt [(kRef, .str [35, 47, 101])] [36, 114, 101, 102] [35, 47, 101] :=
  ⟨.key (b := exUri) (fun r h => nomatch h) (.inr ⟨(fun i h => nomatch h), rfl⟩) rfl (by decide) (.here _ _),
    .inr ⟨(fun i h => nomatch h), rfl⟩, rfl⟩

/-- A reference into the added document, as in `reference_into_added`: "x:/a#/e". -/
example (p : Nat) : (getSchema p [⟨addSchema [] exUri exDoc, none⟩] (exUri ++ [35, 47, 101])).2 =
    .ok (.map [(kId, .str (exUri ++ hashS))]) := by
  have hs : (getSchema p ([] ++ [{ (⟨[], none⟩ : Layer) with schemas := addSchema [] exUri exDoc }]) (resolveURI exUri [] ++ 35 :: [47, 101])).2 =
      .ok (.map [(kId, .str (exUri ++ hashS))]) := by
    refine reference_into_added p (l := ⟨[], none⟩) (ts := [[101]]) (by rw [exUri_self]; decide) rfl nofun ?_ ?_ ?_ ?_ ?_
    · rw [exUri_self, exDoc_added]; simp [AMap.get, exUri, hashS]
    · simp [exDoc, Val.WF, WFMap, AMap.Sorted, AMap.above, kD, keyLt]
    · intro q xs hq
      unfold exDoc at hq
      cases q with
      | nil => cases hq
      | cons e q =>
        cases e with
        | index i => cases hq
        | key k =>
          simp only [getPath?, getElem?, getKey?, AMap.get] at hq
          by_cases h1 : kD = k
          · rw [if_pos h1] at hq
            cases q with
            | nil => cases hq
            | cons e q =>
              cases e with
              | index i => cases hq
              | key k =>
                simp only [getPath?, getElem?, getKey?, AMap.get] at hq
                by_cases h1 : kRef = k
                · rw [if_pos h1] at hq
                  cases q with
                  | nil => cases hq
                  | cons e q => cases e <;> cases hq
                · rw [if_neg h1] at hq; cases hq
          · rw [if_neg h1] at hq
            by_cases h1 : [101] = k
            · rw [if_pos h1] at hq
              cases q with
              | nil => cases hq
              | cons e q =>
                cases e with
                | index i => cases hq
                | key k =>
                  simp only [getPath?, getElem?, getKey?, AMap.get] at hq
                  by_cases h1 : kId = k
                  · rw [if_pos h1] at hq
                    cases q with
                    | nil => cases hq
                    | cons e q => cases e <;> cases hq
                  · rw [if_neg h1] at hq; cases hq
            · rw [if_neg h1] at hq; cases hq
    · exact .plain (by decide) (.plain (by decide) .nil)
    · rw [exUri_self, exDoc_norm]
      exact .member (by simp [AMap.get, kD]) .here
  rw [exUri_self] at hs
  exact hs

/-- The document itself, as in `document_found`. -/
example (p : Nat) : (getSchema p [⟨addSchema [] exUri exDoc, none⟩] exUri).2 = .ok (norm exUri exDoc) := by
  have := document_found p (l := ⟨[], none⟩) (post := []) (uri := exUri) (doc := exDoc) rfl (by decide) (.inl exUri_self.symm)
  rw [exUri_self] at this
  exact this

/-- A document nobody knows, as in `unknown_throws`. -/
example (p : Nat) : getSchema p [⟨[], none⟩, ⟨addSchema [] exUri exDoc, none⟩] [121] =
    ([⟨[], none⟩, ⟨addSchema [] exUri exDoc, none⟩], .throw .runtime) := by
  rw [exDoc_added]
  refine unknown_throws p (ls := [_, _]) (by intro e; cases e) ?_ (by simp)
  have : splitUri [121] = ([121], []) := by decide
  rw [this]
  simp [AMap.get, exUri, hashS]

/-- Files: only "q/b" can be read. -/
def exSrc : Sources := ⟨fun n => if n = [113, 47, 98] then .ok exDoc else .throw .runtime, fun _ => .throw .runtime, fun _ => .throw .runtime⟩

/-- "b" is read from the second path, as in `first_path_wins`. -/
example (p : Nat) : (getSchema p [⟨[], some (advMissing exSrc [[112], [113], [114]] none)⟩] [98]).2 = .ok (norm [98] exDoc) := by
  refine first_path_wins p (pre := [[112]]) (d := [113]) (post := [[114]]) (i := ⟨[98], [], [], [98], [], []⟩) (by decide) nofun rfl (by decide)
    ?_ ?_ (by decide) rfl (by decide) rfl
  · intro d hd
    simp at hd; subst hd
    exact ⟨.runtime, rfl⟩
  · rfl

/-- "x:/a#/d" is fetched, as in `fetched_known`; it becomes known as "x:/a". -/
example : AMap.get (advMissing ⟨fun _ => .throw .runtime, fun u => if u = exUri then .ok [49] else .throw .runtime, fun _ => .ok exDoc⟩ [] none []
    (exUri ++ [35, 47, 100])).1 exUri = some (norm exUri exDoc) := by
  refine (fetched_known (b := [49]) (i := ⟨exUri ++ [35, 47, 100], [120, 58], [], [47, 97], [], [35, 47, 100]⟩) (by decide) (by decide) (by decide) (by decide)
    (by decide) rfl rfl (by decide) rfl exUri_self rfl).2

/-! ## Findings -/

/-- C62, finding: a schema with an id inside a list (such as `allOf`) does not become known under its id. -/
theorem list_id_unknown_false : ∃ v : Val, getPath? v [.key kD, .index 0] = some (.map [(kId, .str (exUri ++ hashS))]) ∧
    AMap.get (addSchema [] exUri v) (exUri ++ hashS) = none := by
  refine ⟨.map [(kD, .list [.map [(kId, .str (exUri ++ hashS))]])], rfl, ?_⟩
  have h2 : resolveURI exUri (exUri ++ hashS) = exUri ++ hashS := by decide
  unfold addSchema found
  rw [exUri_self]
  simp [norm_eq, norm, normMap, normList, strAt, AMap.get, search, searchMap, addOwn, insertAll, AMap.set, kD, kRef, kId, kEnum, exUri, hashS]

/-- C63, finding: in the schema of a property that is named "enum" references are not resolved. -/
theorem enum_property_false : norm exUri (.map [(kEnum, .map [(kRef, .str [98])])]) = .map [(kEnum, .map [(kRef, .str [98])])] ∧
    resolveURI exUri [98] ≠ [98] := by
  refine ⟨?_, by decide⟩
  simp [norm_eq, normMap, strAt, AMap.get, kRef, kId, kEnum]

/-- C63, finding: data inside a schema, here a default value `{"id": "b"}`, is changed like a schema. -/
theorem default_changed_false : norm exUri (.map [([100, 101, 102, 97, 117, 108, 116], .map [(kId, .str [98])])]) =
    .map [([100, 101, 102, 97, 117, 108, 116], .map [(kId, .str [120, 58, 47, 98])])] := by
  have h : resolveURI exUri [98] = [120, 58, 47, 98] := by decide
  simp [norm_eq, norm, normMap, strAt, AMap.get, AMap.set, kRef, kId, kEnum, h]

/-- C64, finding: a schema with an "id" of its own that is given to a validation cannot refer to its own parts:
its reference "#/d" becomes "x:/a#/d", but the schema is known as "" only, and the lookup throws. -/
theorem own_id_false (p : Nat) (builtin : Val) :
    getPath? (norm [] (.map [(kD, .map [(kRef, .str [35, 47, 100])]), (kId, .str exUri)])) [.key kD, .key kRef] =
      some (.str (exUri ++ [35, 47, 100])) ∧
    (getSchema p [localLayer ([109], builtin) (.map [(kD, .map [(kRef, .str [35, 47, 100])]), (kId, .str exUri)])] (exUri ++ [35, 47, 100])).2 =
      .throw .runtime := by
  have h0 : resolveURI [] exUri = exUri := by decide
  have h1 : resolveURI exUri [35, 47, 100] = exUri ++ [35, 47, 100] := by decide
  have hn : norm [] (.map [(kD, .map [(kRef, .str [35, 47, 100])]), (kId, .str exUri)]) =
      .map [(kD, .map [(kRef, .str (exUri ++ [35, 47, 100]))]), (kId, .str exUri)] := by
    simp [norm_eq, norm, normMap, normId, baseOf, strAt, AMap.get, AMap.set, kRef, kId, kEnum, kD, h0, h1, keyLt]
  rw [hn]
  refine ⟨by simp [getPath?, getElem?, getKey?, AMap.get], ?_⟩
  have hs : splitUri (exUri ++ [35, 47, 100]) = (exUri, [47, 100]) := by decide
  have ha : localLayer ([109], builtin) (.map [(kD, .map [(kRef, .str [35, 47, 100])]), (kId, .str exUri)]) =
      ⟨[([], .map [(kD, .map [(kRef, .str (exUri ++ [35, 47, 100]))]), (kId, .str exUri)]), ([109], builtin)], none⟩ := by
    unfold localLayer addSchema found
    dsimp only
    rw [resolve_nil, hn]
    simp [search, searchMap, addOwn, strAt, AMap.get, insertAll, AMap.set, kD, kRef, kId, kEnum, trusted, exUri, keyLt]
  rw [ha]
  simp only [getSchema, hs]
  simp [AMap.get, exUri, handleMissing]

/-- C65, finding: a reference with a fragment whose document URI has dot segments: the document is read and stored
under another URI than it is then looked up at, and the answer is null. -/
theorem dots_fragment_false (p : Nat) : ∃ src : Sources, src.file [112, 47, 46, 47, 98] = .ok exDoc ∧
    (getSchema p [⟨[], some (advMissing src [[112]] none)⟩] [46, 47, 98, 35]).2 = .ok .null := by
  refine ⟨⟨fun n => if n = [112, 47, 46, 47, 98] then .ok exDoc else .throw .runtime, fun _ => .throw .runtime, fun _ => .throw .runtime⟩, rfl, ?_⟩
  have hs : splitUri [46, 47, 98, 35] = ([46, 47, 98], []) := by decide
  have hp : parseURI [46, 47, 98] = some ⟨[46, 47, 98], [], [], [46, 47, 98], [], []⟩ := by decide
  have hr : resolveURI [46, 47, 98] [] = [98] := by decide
  have hb : resolveURI [98] hashS = 98 :: hashS := by decide
  have hb2 : resolveURI [98] [35, 47, 101] = 98 :: [35, 47, 101] := by decide
  have hn : norm [98] exDoc = .map [(kD, .map [(kRef, .str (98 :: [35, 47, 101]))]), ([101], .map [(kId, .str (98 :: hashS))])] := by
    unfold exDoc
    simp [norm_eq, strAt, AMap.get, normMap, normId, baseOf, AMap.set, hb, hb2, kD, kRef, kId, kEnum, norm]
  have hf : found [46, 47, 98] exDoc = [([98], norm [98] exDoc), (98 :: hashS, .map [(kId, .str (98 :: hashS))])] := by
    unfold found
    dsimp only
    rw [hr, hn]
    simp [search, searchMap, addOwn, strAt, AMap.get, AMap.set, kD, kRef, kId, kEnum, trusted, hashS, keyLt]
  simp only [getSchema, hs, handleMissing, advMissing, hp]
  simp [AMap.get, loadFromFile, filePath, searchPaths, tryAdd, orElse, addSchema, hf, insertAll, AMap.set, keyLt, hashS]

/-- C65, finding: the handler of a loader that has a base is never called. -/
theorem handler_with_base_false (p : Nat) (l : Layer) (h : Option Handler) (bases : List Layer) (hb : bases ≠ []) (uri : Bytes) :
    (getSchema p ({ l with handler := h } :: bases) uri).2 = (getSchema p (l :: bases) uri).2 := by
  simp only [getSchema]
  cases AMap.get l.schemas uri with
  | some v => rfl
  | none =>
    dsimp only
    cases AMap.get l.schemas (splitUri uri).1 with
    | some v => rfl
    | none =>
      dsimp only
      rw [if_pos hb, if_pos hb]

/-- C65, finding: an empty answer from the network is undefined behaviour. -/
theorem empty_answer_ub (src : Sources) (i : Info) (s : Schemas) (h : src.fetch (i.protocol ++ i.authority ++ i.pathname ++ i.search) = .ok []) :
    (loadFromCurl src s i).2 = .ub := by
  unfold loadFromCurl fetched
  rw [h]
  rfl

end Verif.Loader
