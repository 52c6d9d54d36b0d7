import Verif.Loader.Props
import Verif.Ext.PointerProps
import Verif.Uri.Resolve
import Verif.Uri.Unescape
/-!
# C64-C65: references lead to what they name
-/

namespace Verif.Loader
open Verif Uri Ext

/-! ## Normalising keeps maps ordered -/

theorem str_wf (s : Bytes) : (Val.str s).WF := by simp [Val.WF]

theorem wfMap_set {m : List (Bytes × Val)} (h : WFMap m) {k : Bytes} {v : Val} (hv : v.WF) : WFMap (AMap.set m k v) := by
  induction m with
  | nil => exact ⟨hv, trivial⟩
  | cons e m ih =>
    obtain ⟨k', x⟩ := e
    simp only [AMap.set]
    split
    · exact ⟨hv, h.2⟩
    · split
      · exact ⟨hv, h⟩
      · exact ⟨h.1, ih h.2⟩

theorem normMap_keys (uri : Bytes) : ∀ m : List (Bytes × Val), (normMap uri m).map (·.1) = m.map (·.1)
  | [] => rfl
  | (k, v) :: m => by simp [normMap, normMap_keys uri m]

theorem normMap_above (uri k : Bytes) : ∀ m : List (Bytes × Val), AMap.above k m → AMap.above k (normMap uri m) := by
  intro m
  induction m with
  | nil => exact id
  | cons e m ih =>
    obtain ⟨k', v⟩ := e
    intro h
    unfold AMap.above at h ih ⊢
    simp only [normMap]
    intro p hp
    cases hp with
    | head => exact h (k', v) (.head _)
    | tail _ hp => exact ih (fun q hq => h q (.tail _ hq)) p hp

theorem normMap_sorted (uri : Bytes) : ∀ m : List (Bytes × Val), AMap.Sorted m → AMap.Sorted (normMap uri m)
  | [], _ => trivial
  | (k, v) :: m, h => by
    simp only [normMap]
    exact ⟨normMap_above uri k m h.1, normMap_sorted uri m h.2⟩

mutual
theorem norm_wf (uri : Bytes) : ∀ v : Val, v.WF → (norm uri v).WF
  | .map m, h => by
    rw [norm_eq]
    cases strAt m kRef with
    | some r =>
      dsimp only [Val.WF]
      unfold normId
      cases strAt m kId with
      | none => exact ⟨AMap.sorted_set h.1 _ _, wfMap_set h.2 (str_wf _)⟩
      | some i => exact ⟨AMap.sorted_set (AMap.sorted_set h.1 _ _) _ _, wfMap_set (wfMap_set h.2 (str_wf _)) (str_wf _)⟩
    | none =>
      dsimp only [Val.WF]
      cases strAt m kId with
      | none => exact ⟨normMap_sorted _ _ h.1, normMap_wf _ _ h.2⟩
      | some i => exact ⟨AMap.sorted_set (normMap_sorted _ _ h.1) _ _, wfMap_set (normMap_wf _ _ h.2) (str_wf _)⟩
  | .list xs, h => by
    rw [show norm uri (.list xs) = .list (normList uri xs) by rw [norm]]
    exact normList_wf uri xs h
  | .null, _ => by simp [norm, Val.WF]
  | .bool _, _ => by simp [norm, Val.WF]
  | .int _, _ => by simp [norm, Val.WF]
  | .uint _, _ => by simp [norm, Val.WF]
  | .flt _, _ => by simp [norm, Val.WF]
  | .str _, _ => by simp [norm, Val.WF]
  | .blob _, _ => by simp [norm, Val.WF]
theorem normMap_wf (uri : Bytes) : ∀ m : List (Bytes × Val), WFMap m → WFMap (normMap uri m)
  | [], _ => trivial
  | (k, v) :: m, h => by
    simp only [normMap]
    refine ⟨?_, normMap_wf uri m h.2⟩
    by_cases hk : k = kEnum
    · simp only [hk, if_true]; exact h.1
    · simp only [hk, if_false]; exact norm_wf uri v h.1
theorem normList_wf (uri : Bytes) : ∀ xs : List Val, WFList xs → WFList (normList uri xs)
  | [], _ => trivial
  | x :: xs, h => by
    simp only [normList]
    exact ⟨norm_wf uri x h.1, normList_wf uri xs h.2⟩
end

theorem norm_fit (uri : Bytes) {v : Val} (h : ListsFit v) : ListsFit (norm uri v) := by
  intro q ys hy
  cases hx : getPath? v q with
  | none => rw [(norm_only_refs q uri v).2 hx] at hy; cases hy
  | some x =>
    obtain ⟨y, h1, h2⟩ := (norm_only_refs q uri v).1 x hx
    rw [hy] at h1; cases h1
    cases x with
    | list xs =>
      obtain ⟨ys', e, hl⟩ := h2
      cases e
      rw [hl]; exact h q xs hx
    | map m => obtain ⟨_, e, _⟩ := h2; cases e
    | str s =>
      rcases h2 with e | ⟨_, s', e⟩
      · cases e
      · cases e
    | _ => cases h2

/-! ## Looking up -/

theorem splitUri_hash {base fragment : Bytes} (h : (35 : UInt8) ∉ base) : splitUri (base ++ 35 :: fragment) = (base, fragment) := by
  have hm : ∀ c ∈ base, decide (c ≠ 35) = true := by
    intro c hc
    simp only [decide_eq_true_eq]
    rintro rfl
    exact h hc
  unfold splitUri
  rw [if_pos (by simp), List.takeWhile_append_of_pos hm, List.dropWhile_append_of_pos hm]
  simp

theorem splitUri_plain {uri : Bytes} (h : (35 : UInt8) ∉ uri) : splitUri uri = (resolveURI uri [], []) := if_neg h

theorem inside_nil (p : Nat) (v : Val) : inside p v [] = .ok v := by
  unfold inside
  rw [show unescapeURI [] = .ok [] by rw [unescapeURI]]
  rfl

/-- Loaders that know neither the URI nor its document are passed over. -/
theorem getSchema_skip (p : Nat) {pre post : List Layer} (hp : post ≠ []) {uri : Bytes}
    (h : ∀ l ∈ pre, AMap.get l.schemas uri = none ∧ AMap.get l.schemas (splitUri uri).1 = none) :
    getSchema p (pre ++ post) uri = (pre ++ (getSchema p post uri).1, (getSchema p post uri).2) := by
  induction pre with
  | nil => rfl
  | cons l pre ih =>
    obtain ⟨h1, h2⟩ := h l (.head _)
    have ih := ih (fun l hl => h l (.tail _ hl))
    simp only [List.cons_append, getSchema, h1, h2]
    rw [if_pos (by simp [hp]), ih]

/-- C64.  A reference `document#fragment` leads to the part of the document its fragment points at: the fragment is
any percent encoding of the pointer to that part.  The loader asked does not have to know the document; the first
of its bases that does is used. -/
theorem reference_found (p : Nat) {pre post : List Layer} {l : Layer} {base frag : Bytes} {doc w : Val} {ts : List Bytes}
    (hb : (35 : UInt8) ∉ base)
    (hpre : ∀ l' ∈ pre, AMap.get l'.schemas (base ++ 35 :: frag) = none ∧ AMap.get l'.schemas base = none)
    (hl : AMap.get l.schemas base = some doc) (hx : AMap.get l.schemas (base ++ 35 :: frag) = none)
    (hw : doc.WF) (hf : ListsFit doc) (he : PercentEncodes (pointerText ts) frag) (hr : Reaches doc ts w) :
    getSchema p (pre ++ l :: post) (base ++ 35 :: frag) = (pre ++ l :: post, .ok w) := by
  have hs := splitUri_hash (fragment := frag) hb
  rw [getSchema_skip p (by simp) (by rw [hs]; exact hpre)]
  have : getSchema p (l :: post) (base ++ 35 :: frag) = (l :: post, .ok w) := by
    simp only [getSchema, hx, hs, hl]
    unfold inside
    rw [unescape_inverts he]
    simp only [lookup_finds p doc hw hf ts w hr]
  rw [this]

/-- C64.  After adding a document at a URI that was not known, a reference into it leads to the part it names, with
its references resolved. -/
theorem reference_into_added (p : Nat) {pre post : List Layer} {l : Layer} {uri frag : Bytes} {doc w : Val} {ts : List Bytes}
    (hb : (35 : UInt8) ∉ resolveURI uri []) (hn : AMap.get l.schemas (resolveURI uri []) = none)
    (hpre : ∀ l' ∈ pre, AMap.get l'.schemas (resolveURI uri [] ++ 35 :: frag) = none ∧ AMap.get l'.schemas (resolveURI uri []) = none)
    (hx : AMap.get (addSchema l.schemas uri doc) (resolveURI uri [] ++ 35 :: frag) = none)
    (hw : doc.WF) (hf : ListsFit doc) (he : PercentEncodes (pointerText ts) frag)
    (hr : Reaches (norm (resolveURI uri []) doc) ts w) :
    (getSchema p (pre ++ { l with schemas := addSchema l.schemas uri doc } :: post) (resolveURI uri [] ++ 35 :: frag)).2 = .ok w := by
  rw [reference_found p hb hpre ((add_defines l.schemas uri doc).1 hn) hx (norm_wf _ _ hw) (norm_fit _ hf) he hr]

/-- C64.  The URI a document was added at leads to it, whether written normalised or not. -/
theorem document_found (p : Nat) {l : Layer} {post : List Layer} {uri : Bytes} {doc : Val}
    (hn : AMap.get l.schemas (resolveURI uri []) = none) (hu : (35 : UInt8) ∉ uri)
    (hx : uri = resolveURI uri [] ∨ AMap.get (addSchema l.schemas uri doc) uri = none) :
    (getSchema p ({ l with schemas := addSchema l.schemas uri doc } :: post) uri).2 = .ok (norm (resolveURI uri []) doc) := by
  have hd := (add_defines l.schemas uri doc).1 hn
  simp only [getSchema]
  rcases hx with e | hx
  · rw [← e] at hd
    rw [hd]
    dsimp only
    rw [← e]
  · rw [hx]
    dsimp only
    rw [splitUri_plain hu, hd]
    exact inside_nil p _

/-- C64.  A URI that is known leads to its schema in the first loader that knows it. -/
theorem known_found (p : Nat) {pre post : List Layer} {l : Layer} {uri : Bytes} {v : Val}
    (hpre : ∀ l' ∈ pre, AMap.get l'.schemas uri = none ∧ AMap.get l'.schemas (splitUri uri).1 = none)
    (hl : AMap.get l.schemas uri = some v) : getSchema p (pre ++ l :: post) uri = (pre ++ l :: post, .ok v) := by
  rw [getSchema_skip p (by simp) hpre]
  simp only [getSchema, hl]

/-- C64.  A document nobody knows and nobody can supply: an exception, and nothing changes. -/
theorem unknown_throws (p : Nat) {ls : List Layer} (hne : ls ≠ []) {uri : Bytes}
    (h : ∀ l ∈ ls, AMap.get l.schemas uri = none ∧ AMap.get l.schemas (splitUri uri).1 = none)
    (hh : ∀ l ∈ ls, l.handler = none) : getSchema p ls uri = (ls, .throw .runtime) := by
  induction ls with
  | nil => exact absurd rfl hne
  | cons l ls ih =>
    obtain ⟨h1, h2⟩ := h l (.head _)
    simp only [getSchema, h1, h2]
    cases ls with
    | nil =>
      rw [if_neg (by simp)]
      simp only [handleMissing, hh l (.head _)]
    | cons l' ls =>
      rw [if_pos (by simp), ih (by simp) (fun x hx => h x (.tail _ hx)) (fun x hx => hh x (.tail _ hx))]

/-! ## References inside the schema given to a validation -/

theorem resolve_nil : resolveURI [] [] = [] := by decide

/-- C64.  A schema given to `SchemaValidate`: its references of the form `#fragment`, in places without a base URI of
their own, lead to its own parts. -/
theorem local_reference (p : Nat) {builtin : Bytes × Val} {bases : List Layer} {schema w : Val} {frag : Bytes} {ts : List Bytes}
    (h0 : builtin.1 ≠ []) (hx : AMap.get (addSchema [builtin] [] schema) (35 :: frag) = none)
    (hw : schema.WF) (hf : ListsFit schema) (he : PercentEncodes (pointerText ts) frag) (hr : Reaches (norm [] schema) ts w) :
    (getSchema p (localLayer builtin schema :: bases) (35 :: frag)).2 = .ok w := by
  have := reference_into_added p (pre := []) (post := bases) (l := ⟨[builtin], none⟩) (uri := []) (frag := frag) (doc := schema) (w := w)
    (ts := ts) (by rw [resolve_nil]; nofun) (by rw [resolve_nil]; obtain ⟨k, v⟩ := builtin; simp [AMap.get]; exact h0) nofun
    (by rw [resolve_nil]; exact hx) hw hf he (by rw [resolve_nil]; exact hr)
  rw [resolve_nil] at this
  exact this

/-! ## Looking up never loses a schema -/

/-- A handler that only adds. -/
def Adds (h : Handler) : Prop := ∀ s u k v, AMap.get s k = some v → AMap.get (h s u).1 k = some v

/-- C62.  Looking a schema up leaves every known schema as it was, in the loader and its bases. -/
theorem lookup_keeps (p : Nat) (ls : List Layer) (uri : Bytes) (hh : ∀ l ∈ ls, ∀ h, l.handler = some h → Adds h) :
    (getSchema p ls uri).1.length = ls.length ∧
    ∀ (i : Nat) l l', ls[i]? = some l → (getSchema p ls uri).1[i]? = some l' → l'.handler = l.handler ∧
      ∀ k v, AMap.get l.schemas k = some v → AMap.get l'.schemas k = some v := by
  induction ls with
  | nil => exact ⟨rfl, fun i l l' h => by simp at h⟩
  | cons l ls ih =>
    have same : ∀ (ms : List Layer) (i : Nat) (l l' : Layer), ms[i]? = some l → ms[i]? = some l' → l'.handler = l.handler ∧
        ∀ k v, AMap.get l.schemas k = some v → AMap.get l'.schemas k = some v := by
      intro ms i l l' h h'
      rw [h] at h'; cases h'
      exact ⟨rfl, fun _ _ h => h⟩
    simp only [getSchema]
    cases AMap.get l.schemas uri with
    | some v => exact ⟨rfl, same _⟩
    | none =>
      dsimp only
      cases AMap.get l.schemas (splitUri uri).1 with
      | some v => exact ⟨rfl, same _⟩
      | none =>
        dsimp only
        by_cases hls : ls ≠ []
        · rw [if_pos hls]
          obtain ⟨i1, i2⟩ := ih (fun x hx => hh x (.tail _ hx))
          refine ⟨by simp [i1], fun i a a' ha ha' => ?_⟩
          cases i with
          | zero => simp at ha ha'; subst ha; subst ha'; exact ⟨rfl, fun _ _ h => h⟩
          | succ i => exact i2 i a a' (by simpa using ha) (by simpa using ha')
        · rw [if_neg hls]
          simp only [Decidable.not_not] at hls
          subst hls
          refine ⟨rfl, fun i a a' ha ha' => ?_⟩
          cases i with
          | succ i => simp at ha
          | zero =>
            simp at ha ha'
            subst ha; subst ha'
            unfold handleMissing
            cases hhd : l.handler with
            | none => exact ⟨hhd, fun _ _ h => h⟩
            | some h => exact ⟨rfl, fun k v hk => hh l (.head _) h hhd l.schemas _ k v hk⟩

theorem tryAdd_keeps {s : Schemas} {uri : Bytes} {o : Out Val} {k : Bytes} {v : Val} (h : AMap.get s k = some v) :
    AMap.get (tryAdd s uri o).1 k = some v := by
  cases o with
  | ok x => exact add_keeps _ _ _ _ _ h
  | _ => exact h

theorem orElse_keeps {r : Schemas × Out Bool} {f : Schemas → Schemas × Out Bool} {k : Bytes} {v : Val} (h : AMap.get r.1 k = some v)
    (hf : ∀ s, AMap.get s k = some v → AMap.get (f s).1 k = some v) : AMap.get (orElse r f).1 k = some v := by
  unfold orElse
  split
  · exact hf _ h
  · exact h

theorem loadFromFile_keeps {src : Sources} {paths : List Bytes} {s : Schemas} {i : Info} {k : Bytes} {v : Val} (h : AMap.get s k = some v) :
    AMap.get (loadFromFile src paths s i).1 k = some v := by
  unfold loadFromFile
  split
  · exact tryAdd_keeps h
  · generalize filePath i = q
    induction paths generalizing s with
    | nil => exact h
    | cons d ds ih =>
      simp only [searchPaths]
      exact orElse_keeps (tryAdd_keeps h) fun s hs => ih hs

/-- C62.  Searching the file system and the network only adds. -/
theorem adv_adds (src : Sources) (paths : List Bytes) (user : Option Handler) (hu : ∀ h, user = some h → Adds h) :
    Adds (advMissing src paths user) := by
  have hp : ∀ s u k v, AMap.get s k = some v → AMap.get (plainMissing user s u).1 k = some v := by
    intro s u k v h
    unfold plainMissing
    cases he : user with
    | none => exact h
    | some f => exact hu f he s u k v h
  have hc : ∀ s i k v, AMap.get s k = some v → AMap.get (loadFromCurl src s i).1 k = some v := fun s i k v h => tryAdd_keeps h
  intro s u k v h
  unfold advMissing
  split
  · exact hp _ _ _ _ h
  · split
    · exact hp _ _ _ _ h
    · split
      · exact orElse_keeps (loadFromFile_keeps h) fun s hs => hp _ _ _ _ hs
      · split
        · exact orElse_keeps (orElse_keeps (loadFromFile_keeps h) fun s hs => hc _ _ _ _ hs) fun s hs => hp _ _ _ _ hs
        · split
          · exact orElse_keeps (loadFromFile_keeps h) fun s hs => hp _ _ _ _ hs
          · exact orElse_keeps (hc _ _ _ _ h) fun s hs => hp _ _ _ _ hs

/-! ## Where missing documents come from -/

/-- C65.  A URI that starts with '/' or '.' or has the scheme `file:` is never fetched from the network: what the
network would answer makes no difference. -/
theorem file_only {src src' : Sources} (hs : src.file = src'.file) (paths : List Bytes) (user : Option Handler) (s : Schemas) {uri : Bytes} {i : Info}
    (hi : parseURI uri = some i) (h : i.href.head? = some 47 ∨ i.href.head? = some 46 ∨ i.protocol = [102, 105, 108, 101, 58]) :
    advMissing src paths user s uri = advMissing src' paths user s uri := by
  have hl : loadFromFile src paths s i = loadFromFile src' paths s i := by
    unfold loadFromFile
    rw [hs]
    split
    · rfl
    · generalize filePath i = q
      induction paths generalizing s with
      | nil => rfl
      | cons d ds ih =>
        simp only [searchPaths, hs]
        congr 1
        funext s
        exact ih s
  unfold advMissing
  rw [hi]
  dsimp only
  rw [hl]
  split
  · rfl
  · by_cases g : i.href.head? = some 47 ∨ i.href.head? = some 46
    · rw [if_pos g, if_pos g]
    · have g2 : i.protocol = sFile := by
        rcases h with h | h | h
        · exact absurd (.inl h) g
        · exact absurd (.inr h) g
        · exact h
      have g3 : i.protocol ≠ [] := by rw [g2]; decide
      rw [if_neg g, if_neg g, if_neg g3, if_neg g3, if_pos g2, if_pos g2]

/-- C65.  A URI with another scheme is never looked for in the file system, unless it starts with '/' or '.'. -/
theorem network_only {src src' : Sources} (hs : src.fetch = src'.fetch) (hd : src.decode = src'.decode) (paths : List Bytes) (user : Option Handler)
    (s : Schemas) {uri : Bytes} {i : Info} (hi : parseURI uri = some i) (h : i.href.head? ≠ some 47 ∧ i.href.head? ≠ some 46)
    (hp : i.protocol ≠ []) (hf : i.protocol ≠ [102, 105, 108, 101, 58]) :
    advMissing src paths user s uri = advMissing src' paths user s uri := by
  have hl : loadFromCurl src s i = loadFromCurl src' s i := by
    unfold loadFromCurl fetched
    rw [hs, hd]
  unfold advMissing
  rw [hi]
  dsimp only
  have g : ¬ (i.href.head? = some 47 ∨ i.href.head? = some 46) := fun g => g.elim h.1 h.2
  have hf' : i.protocol ≠ sFile := hf
  rw [if_neg g, if_neg g, if_neg hp, if_neg hp, if_neg hf', if_neg hf', hl]

theorem searchPaths_first (src : Sources) (href path : Bytes) {pre post : List Bytes} {d : Bytes} {s : Schemas} {doc : Val}
    (hpre : ∀ d' ∈ pre, ∃ e, src.file ((d' ++ 47 :: path).takeWhile (· ≠ 0)) = .throw e)
    (hd : src.file ((d ++ 47 :: path).takeWhile (· ≠ 0)) = .ok doc) :
    searchPaths src s href path (pre ++ d :: post) = (addSchema s href doc, .ok true) := by
  induction pre with
  | nil => simp only [List.nil_append, searchPaths, hd, tryAdd, orElse]
  | cons d' pre ih =>
    obtain ⟨e, he⟩ := hpre d' (.head _)
    simp only [List.cons_append, searchPaths, he, tryAdd, orElse]
    exact ih (fun x hx => hpre x (.tail _ hx))

/-- C65.  A relative URI is read from the first of the paths, in the order they were added, where it can be read. -/
theorem first_path_wins (p : Nat) {src : Sources} {pre post : List Bytes} {d : Bytes} {user : Option Handler} {s : Schemas} {uri : Bytes} {i : Info}
    {doc : Val} (hi : parseURI uri = some i) (hne : uri ≠ []) (hpr : i.protocol = []) (hrel : (filePath i).head? ≠ some 47)
    (hpre : ∀ d' ∈ pre, ∃ e, src.file ((d' ++ 47 :: filePath i).takeWhile (· ≠ 0)) = .throw e)
    (hd : src.file ((d ++ 47 :: filePath i).takeWhile (· ≠ 0)) = .ok doc)
    (hu : resolveURI uri [] = uri) (hz : i.href = uri) (hh : (35 : UInt8) ∉ uri) (hn : AMap.get s uri = none) :
    (getSchema p [⟨s, some (advMissing src (pre ++ d :: post) user)⟩] uri).2 = .ok (norm uri doc) := by
  have hl : advMissing src (pre ++ d :: post) user s uri = (addSchema s uri doc, .ok true) := by
    have hf : loadFromFile src (pre ++ d :: post) s i = (addSchema s uri doc, .ok true) := by
      unfold loadFromFile
      rw [if_neg hrel, searchPaths_first src i.href (filePath i) hpre hd, hz]
    unfold advMissing
    rw [if_neg hne, hi]
    dsimp only
    rw [hf, if_pos hpr]
    simp only [orElse, ite_self]
  simp only [getSchema, hn, splitUri_plain hh, hu]
  rw [if_neg (by simp)]
  simp only [handleMissing, hl]
  have := (add_defines s uri doc).1 (by rw [hu]; exact hn)
  rw [hu] at this
  rw [this]
  exact inside_nil p _

/-- C65.  What the network answers for a URI with another scheme than `file:` becomes known under the address it was fetched from, which is the
URI without its fragment. -/
theorem fetched_known {src : Sources} {paths : List Bytes} {user : Option Handler} {s : Schemas} {uri b addr : Bytes} {i : Info} {doc : Val}
    (hi : parseURI uri = some i) (hne : uri ≠ []) (hx : i.href.head? ≠ some 47 ∧ i.href.head? ≠ some 46) (hp : i.protocol ≠ [])
    (hf : i.protocol ≠ [102, 105, 108, 101, 58]) (ha : addr = i.protocol ++ i.authority ++ i.pathname ++ i.search)
    (hg : src.fetch addr = .ok b) (hb : b ≠ []) (hd : src.decode b = .ok doc) (hu : resolveURI addr [] = addr) (hn : AMap.get s addr = none) :
    (advMissing src paths user s uri).2 = .ok true ∧ AMap.get (advMissing src paths user s uri).1 addr = some (norm addr doc) := by
  have hl : loadFromCurl src s i = (addSchema s addr doc, .ok true) := by
    unfold loadFromCurl fetched
    rw [← ha, hg]
    dsimp only
    rw [if_neg hb, hd]
    rfl
  have hm : advMissing src paths user s uri = (addSchema s addr doc, .ok true) := by
    unfold advMissing
    rw [if_neg hne, hi]
    dsimp only
    rw [if_neg (fun g => g.elim hx.1 hx.2), if_neg hp, if_neg (show i.protocol ≠ sFile from hf), hl]
    rfl
  rw [hm]
  have := (add_defines s addr doc).1 (by rw [hu]; exact hn)
  rw [hu] at this
  exact ⟨rfl, this⟩

end Verif.Loader
