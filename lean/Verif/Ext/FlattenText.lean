import Verif.Ext.FlattenRound
import Verif.Build.Model
/-!
# Flattening to texts (`FlattenPathToStrStrMap`, src/Extensions.cc 188-215), on value trees
-/

namespace Verif.Flat
open Verif Verif.Ext

/-! ## The model -/

/-- The loop over the elements of a simple list (src/Extensions.cc 197-202); `first` is `j == 0`. -/
def listText (flt : UInt64 → Bytes) (delim : Bytes) (first : Bool) : List Val → Out Bytes
  | [] => .ok []
  | x :: r =>
    match Build.asString flt x with
    | .ok t => match listText flt delim false r with
      | .ok u => .ok ((if first then [] else delim) ++ t ++ u)
      | .throw e => .throw e
      | .ub => .ub
    | .throw e => .throw e
    | .ub => .ub

/-- The text of one entry of the flat form (src/Extensions.cc 195-209). -/
def entryText (flt : UInt64 → Bytes) (delim : Bytes) : Val → Out Bytes
  | .list xs => listText flt delim true xs
  | .blob _ => .throw .runtime
  | v => Build.asString flt v

/-- The loop over the flat form (src/Extensions.cc 192-211).  Simplified: the keys come in the order of the map that is built, so that each new
entry is put at its end. -/
def strLoop (flt : UInt64 → Bytes) (delim : Bytes) : List (Bytes × Val) → Out (List (Bytes × Bytes))
  | [] => .ok []
  | x :: r =>
    match entryText flt delim x.2 with
    | .ok t => match strLoop flt delim r with
      | .ok u => .ok ((x.1, t) :: u)
      | .throw e => .throw e
      | .ub => .ub
    | .throw e => .throw e
    | .ub => .ub

/-- `FlattenPathToStrStrMap` (src/Extensions.cc 188-215): `MapBegin` of a flat form that is null makes it an empty map, and of another one
that is no map it throws (src/Variant.cc 323-324, 638-641).  `delim` is `listDelimiter`, `flt` the text of a Float. -/
def strStrMap (ps : FlatParams) (delim : Bytes) (flt : UInt64 → Bytes) (v : Val) : Out (List (Bytes × Bytes)) :=
  match flattenPath ps v with
  | (_, some e) => .throw e
  | (.map m, none) => strLoop flt delim m
  | (.null, none) => .ok []
  | (_, none) => .throw .unableToConvert

/-! ## Specification -/

/-- The texts of the values, one by one. -/
inductive Texts (flt : UInt64 → Bytes) : List Val → List Bytes → Prop
  | nil : Texts flt [] []
  | cons {x t xs ts} : Build.asString flt x = .ok t → Texts flt xs ts → Texts flt (x :: xs) (t :: ts)

/-- The text of a leaf: that of `AsString`, and of a list those of its elements with the delimiter between them.  Blobs have none. -/
inductive LeafText (flt : UInt64 → Bytes) (delim : Bytes) : Val → Bytes → Prop
  | list {xs ts} : Texts flt xs ts → LeafText flt delim (.list xs) (delim.intercalate ts)
  | scalar {v t} : v.ty ≠ .list → Build.asString flt v = .ok t → LeafText flt delim v t

/-! ## Texts of entries -/

theorem listText_copy (flt : UInt64 → Bytes) (delim : Bytes) (first : Bool) (xs : List Val) :
    listText flt delim first (deepCopyList xs) = listText flt delim first xs := by
  induction xs generalizing first with
  | nil => rfl
  | cons x r ih =>
    have h : Build.asString flt (deepCopy x) = Build.asString flt x := by cases x <;> rfl
    simp only [deepCopyList, listText, h, ih]

theorem entryText_copy (flt : UInt64 → Bytes) (delim : Bytes) (x : Val) : entryText flt delim (deepCopy x) = entryText flt delim x := by
  cases x <;> first | rfl | exact listText_copy flt delim true _

theorem texts_listText {flt : UInt64 → Bytes} {xs : List Val} {ts : List Bytes} (delim : Bytes) (h : Texts flt xs ts) :
    listText flt delim false xs = .ok (ts.flatMap (delim ++ ·)) := by
  induction h with
  | nil => rfl
  | cons h _ ih => simp only [listText, h, ih, List.flatMap_cons]; rfl

theorem intercalate_cons (delim t : Bytes) (ts : List Bytes) : delim.intercalate (t :: ts) = t ++ ts.flatMap (delim ++ ·) := by
  induction ts generalizing t with
  | nil => simp [List.intercalate]
  | cons u r ih =>
    have h : delim.intercalate (t :: u :: r) = t ++ (delim ++ delim.intercalate (u :: r)) := by
      simp [List.intercalate, List.intersperse]
    rw [h, ih, List.flatMap_cons, List.append_assoc]

theorem listText_texts {flt : UInt64 → Bytes} {delim : Bytes} {xs : List Val} {first : Bool} {t : Bytes} (h : listText flt delim first xs = .ok t) :
    ∃ ts, Texts flt xs ts := by
  induction xs generalizing first t with
  | nil => exact ⟨[], .nil⟩
  | cons x r ih =>
    simp only [listText] at h
    split at h <;> try contradiction
    rename_i u hu
    split at h <;> try contradiction
    rename_i w hw
    obtain ⟨ts, hts⟩ := ih hw
    exact ⟨u :: ts, .cons hu hts⟩

theorem listText_first {flt : UInt64 → Bytes} {delim : Bytes} {xs : List Val} {ts : List Bytes} (h : Texts flt xs ts) :
    listText flt delim true xs = .ok (delim.intercalate ts) := by
  cases h with
  | nil => rfl
  | cons h h' =>
    rw [intercalate_cons]
    simp only [listText, h, texts_listText delim h']
    rfl

theorem entryText_iff (flt : UInt64 → Bytes) (delim : Bytes) (x : Val) (t : Bytes) : entryText flt delim x = .ok t ↔ LeafText flt delim x t := by
  constructor
  · intro h
    cases x with
    | list xs =>
      obtain ⟨ts, hts⟩ := listText_texts h
      have h1 := listText_first (delim := delim) hts
      have h2 : listText flt delim true xs = .ok t := h
      rw [h1] at h2
      cases h2
      exact .list hts
    | blob _ => cases h
    | _ => exact .scalar nofun h
  · intro h
    cases h with
    | list h => exact listText_first h
    | scalar h1 h2 =>
      cases x with
      | list _ => exact absurd rfl h1
      | blob _ => cases h2
      | _ => exact h2

theorem mem_strLoop {flt : UInt64 → Bytes} {delim : Bytes} {m : List (Bytes × Val)} {r : List (Bytes × Bytes)} (h : strLoop flt delim m = .ok r)
    (k : Bytes) (t : Bytes) : (k, t) ∈ r ↔ ∃ x, (k, x) ∈ m ∧ entryText flt delim x = .ok t := by
  induction m generalizing r with
  | nil => cases h; simp
  | cons y m ih =>
    simp only [strLoop] at h
    split at h <;> try contradiction
    rename_i u hu
    split at h <;> try contradiction
    rename_i w hw
    cases h
    rw [List.mem_cons, ih hw]
    constructor
    · rintro (h | ⟨x, h1, h2⟩)
      · cases h
        exact ⟨y.2, by simp, hu⟩
      · exact ⟨x, by simp [h1], h2⟩
    · rintro ⟨x, h1, h2⟩
      rcases List.mem_cons.1 h1 with h1 | h1
      · subst h1
        dsimp only at hu
        rw [hu] at h2
        cases h2
        exact .inl rfl
      · exact .inr ⟨x, h1, h2⟩

theorem strLoop_ok {flt : UInt64 → Bytes} {delim : Bytes} {m : List (Bytes × Val)} (h : ∀ x ∈ m, ∃ t, entryText flt delim x.2 = .ok t) :
    ∃ r, strLoop flt delim m = .ok r := by
  induction m with
  | nil => exact ⟨[], rfl⟩
  | cons y m ih =>
    obtain ⟨t, ht⟩ := h y (by simp)
    obtain ⟨r, hr⟩ := ih (fun x hx => h x (by simp [hx]))
    exact ⟨(y.1, t) :: r, by simp only [strLoop, ht, hr]⟩

theorem strLoop_entries {flt : UInt64 → Bytes} {delim : Bytes} {m : List (Bytes × Val)} {r : List (Bytes × Bytes)} (h : strLoop flt delim m = .ok r) :
    ∀ x ∈ m, ∃ t, entryText flt delim x.2 = .ok t := by
  induction m generalizing r with
  | nil => simp
  | cons y m ih =>
    simp only [strLoop] at h
    split at h <;> try contradiction
    rename_i u hu
    split at h <;> try contradiction
    rename_i w hw
    intro x hx
    rcases List.mem_cons.1 hx with rfl | hx
    · exact ⟨u, hu⟩
    · exact ih hw x hx

/-! ## The claim -/

/-- The flat form of a map with plain keys has exactly the leaves. -/
theorem strStrMap_flat (ps : FlatParams) (d : UInt8) (hu : Usual ps d) (delim : Bytes) (flt : UInt64 → Bytes) (m : List (Bytes × Val))
    (hw : (Val.map m).WF) (hf : ListsFit (.map m)) (hk : PlainTree d (.map m)) :
    ∃ f : List (Bytes × Val), strStrMap ps delim flt (.map m) = strLoop flt delim f ∧
      ∀ k y, (k, y) ∈ f ↔ ∃ q x, LeafAt ps (.map m) q x ∧ k = flatText ps q ∧ y = deepCopy x := by
  have hkey : ∀ x ∈ m, x.1 ≠ [] := fun x hx => by
    have hg : getPath? (.map m) [.key x.1] = some x.2 := by
      rw [getPath?_cons, show getElem? (.map m) (.key x.1) = some x.2 from AMap.get_of_mem (wf_sorted hw) hx]; rfl
    exact (hk _ _ hg x.1 (by simp)).1
  have hmem := mem_leaves ps (.map m) hw hf
  have hparse : ∀ q x, LeafAt ps (.map m) q x →
      PathM.parsePath (slashed ps.pathDelimiter (flatText ps q)) = .ok q := by
    intro q x h
    have hpl := hk q x h.get
    cases h with
    | here ha => cases ha
    | @deep _ e c q _ ha hc hl =>
      cases e with
      | index i => cases hc
      | key k => exact parse_flatText hu k q hpl
  have hin : ∀ k y, (k, y) ∈ (leaves ps (.map m)).map (fun y => (flatText ps y.1, deepCopy y.2)) ↔
      ∃ q x, LeafAt ps (.map m) q x ∧ k = flatText ps q ∧ y = deepCopy x := by
    intro k y
    constructor
    · intro h
      obtain ⟨⟨q, x⟩, h1, h2⟩ := List.mem_map.1 h
      cases h2
      exact ⟨q, x, (hmem q x).1 h1, rfl, rfl⟩
    · rintro ⟨q, x, h1, rfl, rfl⟩
      exact List.mem_map.2 ⟨(q, x), (hmem q x).2 h1, rfl⟩
  unfold strStrMap
  rw [flattenPath_eq ps m hw hf hkey]
  generalize (leaves ps (.map m)).map (fun y => (flatText ps y.1, deepCopy y.2)) = L at hin
  by_cases hL : L = []
  · subst hL
    exact ⟨[], rfl, fun k y => hin k y⟩
  · rw [putAll_null hL]
    refine ⟨setAll [] L, rfl, fun k y => ?_⟩
    rw [← hin]
    have hfun : ∀ a ∈ L, ∀ b ∈ L, a.1 = b.1 → a.2 = b.2 := by
      rintro ⟨k1, y1⟩ ha ⟨k2, y2⟩ hb he
      obtain ⟨q, x, l1, rfl, rfl⟩ := (hin _ _).1 ha
      obtain ⟨q', x', l2, rfl, rfl⟩ := (hin _ _).1 hb
      have p1 := hparse q x l1
      dsimp only at he ⊢
      rw [he, hparse q' x' l2] at p1
      cases p1
      have := l1.get.symm.trans l2.get
      cases this
      rfl
    exact ⟨fun h => (mem_setAll h).resolve_left (by simp), fun h => AMap.get_mem (get_setAll (f := []) hfun h)⟩

/-- **C130.** If flattening a map with plain keys to texts succeeds, the result has an entry for every leaf, under the text of its path and with
the text of the leaf, and no other entries. -/
theorem flatten_texts_partial (ps : FlatParams) (d : UInt8) (hu : Usual ps d) (delim : Bytes) (flt : UInt64 → Bytes) (m : List (Bytes × Val))
    (hw : (Val.map m).WF) (hf : ListsFit (.map m)) (hk : PlainTree d (.map m)) {r : List (Bytes × Bytes)}
    (h : strStrMap ps delim flt (.map m) = .ok r) (k t : Bytes) :
    (k, t) ∈ r ↔ ∃ q x, LeafAt ps (.map m) q x ∧ k = flatText ps q ∧ LeafText flt delim x t := by
  obtain ⟨f, h1, h2⟩ := strStrMap_flat ps d hu delim flt m hw hf hk
  rw [mem_strLoop (h1 ▸ h)]
  constructor
  · rintro ⟨y, h3, h4⟩
    obtain ⟨q, x, h5, h6, rfl⟩ := (h2 k y).1 h3
    rw [entryText_copy] at h4
    exact ⟨q, x, h5, h6, (entryText_iff _ _ _ _).1 h4⟩
  · rintro ⟨q, x, h5, h6, h7⟩
    exact ⟨deepCopy x, (h2 k _).2 ⟨q, x, h5, h6, rfl⟩, by rw [entryText_copy]; exact (entryText_iff _ _ _ _).2 h7⟩

/-- **C130.** Flattening a map with plain keys to texts succeeds exactly if every leaf has a text. -/
theorem flatten_texts_succeeds (ps : FlatParams) (d : UInt8) (hu : Usual ps d) (delim : Bytes) (flt : UInt64 → Bytes) (m : List (Bytes × Val))
    (hw : (Val.map m).WF) (hf : ListsFit (.map m)) (hk : PlainTree d (.map m)) :
    (∃ r, strStrMap ps delim flt (.map m) = .ok r) ↔ ∀ q x, LeafAt ps (.map m) q x → ∃ t, LeafText flt delim x t := by
  obtain ⟨f, h1, h2⟩ := strStrMap_flat ps d hu delim flt m hw hf hk
  rw [h1]
  constructor
  · rintro ⟨r, hr⟩ q x hl
    obtain ⟨t, ht⟩ := strLoop_entries hr (flatText ps q, deepCopy x) ((h2 _ _).2 ⟨q, x, hl, rfl, rfl⟩)
    rw [entryText_copy] at ht
    exact ⟨t, (entryText_iff _ _ _ _).1 ht⟩
  · intro h
    refine strLoop_ok ?_
    rintro ⟨k, y⟩ hy
    obtain ⟨q, x, hl, _, rfl⟩ := (h2 _ _).1 hy
    obtain ⟨t, ht⟩ := h q x hl
    exact ⟨t, by rw [entryText_copy]; exact (entryText_iff _ _ _ _).2 ht⟩

/-- C130 is false of keys with the delimiter: one of the two leaves of `{"a": {"b": 1}, "a/b": 2}` is lost. -/
theorem flatten_texts_false : strStrMap .default [44] (fun _ => []) (.map [([97], .map [([98], .int 1)]), ([97, 47, 98], .int 2)]) =
    .ok [([97, 47, 98], [50])] := by
  simp [strStrMap, flattenPath, flattenTo, flattenTo.flattenMap, keyText, putFlat, FlatParams.default, setElem, setKey, deepCopy, AMap.set, strLoop, entryText,
    Build.asString, natDec_lt, keyLt, digitByte]

theorem first_text {c : UInt8} {t : Bytes} (ht : c ∉ t) (ts : List Bytes) : (t ++ ts.flatMap ([c] ++ ·)).takeWhile (· ≠ c) = t := by
  rw [List.takeWhile_append_of_pos (fun a ha => by simpa using fun e : a = c => ht (e ▸ ha))]
  cases ts <;> simp

/-- **C130.** The text of a list with at least one element tells the texts of its elements, if none of them has the delimiter in it. -/
theorem list_told {c : UInt8} : ∀ {ts ts' : List Bytes}, ts ≠ [] → ts' ≠ [] → (∀ t ∈ ts, c ∉ t) → (∀ t ∈ ts', c ∉ t) →
    List.intercalate [c] ts = List.intercalate [c] ts' → ts = ts'
  | [], _, h, _, _, _, _ => absurd rfl h
  | _ :: _, [], _, h, _, _, _ => absurd rfl h
  | t :: ts, t' :: ts', _, _, h1, h2, h => by
    rw [intercalate_cons, intercalate_cons] at h
    have e : t = t' := by
      have h3 := first_text (h1 t (by simp)) ts
      rw [h, first_text (h2 t' (by simp)) ts'] at h3
      exact h3.symm
    subst e
    have h4 := List.append_cancel_left h
    cases ts with
    | nil =>
      cases ts' with
      | nil => rfl
      | cons u r => simp at h4
    | cons u r =>
      cases ts' with
      | nil => simp at h4
      | cons u' r' =>
        rw [List.flatMap_cons, List.flatMap_cons, List.append_assoc, List.append_assoc] at h4
        have h5 := List.append_cancel_left h4
        rw [list_told (ts := u :: r) (ts' := u' :: r') (by simp) (by simp) (fun x hx => h1 x (.tail _ hx)) (fun x hx => h2 x (.tail _ hx))
          (by rw [intercalate_cons, intercalate_cons]; exact h5)]

/-- C130 is false of empty lists, which have the text of a list of one empty text, and of elements with the delimiter. -/
theorem list_told_false : listText (fun _ => []) [44] true [] = listText (fun _ => []) [44] true [.str []] ∧
    listText (fun _ => []) [44] true [.str [97, 44, 98]] = listText (fun _ => []) [44] true [.str [97], .str [98]] := ⟨rfl, rfl⟩

/-! ## Cases -/

/-- `{"a": [1, {"b": "x"}], "c": null}`: the entries "a[0]", "a[1]/b" and "c". -/
example : strStrMap .default [44] (fun _ => []) (.map nested) = .ok [([97, 91, 48, 93], [49]), ([97, 91, 49, 93, 47, 98], [120]), ([99], [])] := by
  simp [strStrMap, nested, flattenPath, flattenTo, flattenTo.flattenMap, flattenTo.flattenList, keyText, indexText, putFlat, FlatParams.default, setElem, setKey,
    deepCopy, AMap.set, strLoop, entryText, Build.asString, natDec_lt, keyLt, digitByte]

/-- `nested` meets the hypotheses of `flatten_texts_partial`: its keys are plain. -/
example : PlainTree 0x2f (.map nested) := fun q c h k hk => by
  rcases nested_paths q c h with ⟨rfl, _⟩ | ⟨rfl, _⟩ | ⟨rfl, _⟩ | ⟨rfl, _⟩ | ⟨rfl, _⟩ | ⟨rfl, _⟩ <;> simp at hk <;>
    (rcases hk with rfl | rfl) <;> (refine ⟨by decide, ?_⟩; decide)

/-- `{"a": ["x", "y"]}` with simple lists: "x,y". -/
example : strStrMap { FlatParams.default with noSimpleLists := false } [44] (fun _ => []) (.map [([97], .list [.str [120], .str [121]])]) =
    .ok [([97], [120, 44, 121])] := rfl

end Verif.Flat
