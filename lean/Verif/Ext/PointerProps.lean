import Verif.Ext.Walk
/-!
# C38 and C39: JSON pointers
-/

namespace Verif.Ext
open Verif

theorem pointerOp_text (p : Nat) (v : Val) (op : POp) (ts : List Bytes) :
    pointerOp p v op (pointerText ts) = opTokens p v op ts := by
  simp only [pointerOp, components_pointerText]

theorem fits_map {m : List (Bytes × Val)} (h : ∀ k c, AMap.get m k = some c → ListsFit c) : ListsFit (.map m) := by
  intro q xs hq
  rcases q with _ | ⟨e, q⟩
  · cases hq
  · rw [getPath?_cons] at hq
    cases e with
    | index i => cases hq
    | key k =>
      have e2 : getElem? (.map m) (.key k) = AMap.get m k := rfl
      rw [e2] at hq
      cases hk : AMap.get m k with
      | none => rw [hk] at hq; cases hq
      | some c => rw [hk] at hq; exact h k c hk q xs hq

theorem fits_list {ys : List Val} (hl : ys.length < 2 ^ 32) (h : ∀ c ∈ ys, ListsFit c) : ListsFit (.list ys) := by
  intro q xs hq
  rcases q with _ | ⟨e, q⟩
  · cases hq; exact hl
  · rw [getPath?_cons] at hq
    cases e with
    | key i => cases hq
    | index i =>
      have e2 : getElem? (.list ys) (.index i) = ys[i.toNat]? := rfl
      rw [e2] at hq
      cases hk : ys[i.toNat]? with
      | none => rw [hk] at hq; cases hq
      | some c => rw [hk] at hq; exact h c (List.mem_of_getElem? hk) q xs hq

theorem fits_leaf {v : Val} (h1 : (v.ty == .list) = false) (h2 : (v.ty == .map) = false) : ListsFit v := by
  intro q xs hq
  rcases q with _ | ⟨e, q⟩
  · cases hq; cases h1
  · rw [getPath?_cons] at hq
    cases v <;> first | (cases h1; done) | (cases h2; done) | (cases e <;> cases hq)

theorem get_one {k k' : Bytes} {x c : Val} (h : AMap.get [(k, x)] k' = some c) : k' = k ∧ c = x := by
  simp only [AMap.get] at h
  split at h
  · rename_i e; cases h; simp_all
  · cases h

/-! ## C38: lookup -/

theorem lookup_tokens (p : Nat) {v : Val} (hw : v.WF) (ts : List Bytes) (w : Val) :
    pointerLookup p v (pointerText ts) = (v, .ok w) ↔ ∃ q, walk v ts = some q ∧ getPath? v q = some w := by
  simp only [pointerLookup, pointerOp_text]
  obtain ⟨h1, h2⟩ := opTokens_get p hw ts
  cases hwk : walk v ts with
  | none =>
    obtain ⟨e, he⟩ := h1 hwk
    rw [he]
    constructor
    · intro h; cases h
    · rintro ⟨q, h, _⟩; cases h
  | some q =>
    obtain ⟨c, hc⟩ := walk_get hwk
    rw [h2 q c hwk hc]
    constructor
    · intro h
      cases h
      exact ⟨q, rfl, hc⟩
    · rintro ⟨q', h, hq⟩
      cases h
      rw [hc] at hq; cases hq
      rfl

/-- **C38.** The tokens lead to an element: looking up their pointer returns it. -/
theorem lookup_finds (p : Nat) (v : Val) (hw : v.WF) (hf : ListsFit v) (ts : List Bytes) (w : Val)
    (h : Reaches v ts w) : pointerLookup p v (pointerText ts) = (v, .ok w) :=
  (lookup_tokens p hw ts w).mpr (reaches_walk hf h)

/-- **C38.** What lookup returns is what the tokens lead to, and when they lead nowhere the lookup
throws; the document is not changed.  Partial: tokens that are neither a plain decimal number below
2^32 nor clearly no number can be taken as one. -/
theorem lookup_exact_partial (p : Nat) (v : Val) (hw : v.WF) (hf : ListsFit v) (ts : List Bytes)
    (hp : ∀ t ∈ ts, Proper t) :
    (∃ w, Reaches v ts w ∧ pointerLookup p v (pointerText ts) = (v, .ok w)) ∨
      (∀ w, ¬ Reaches v ts w) ∧ pointerLookup p v (pointerText ts) = (v, .throw .runtime) := by
  cases hwk : walk v ts with
  | none =>
    refine .inr ⟨fun w h => ?_, ?_⟩
    · obtain ⟨q, h1, _⟩ := reaches_walk hf h
      rw [hwk] at h1; cases h1
    · obtain ⟨e, he⟩ := (opTokens_get p hw ts).1 hwk
      simp only [pointerLookup, pointerOp_text, he]
      rfl
  | some q =>
    obtain ⟨w, hc⟩ := walk_get hwk
    exact .inl ⟨w, walk_reaches hp hwk hc, (lookup_tokens p hw ts w).mpr ⟨q, hwk, hc⟩⟩

/-- The document `{"a/b": {"m~n": [10, 20]}}`. -/
def sample : Val :=
  .map [([0x61, 0x2f, 0x62], .map [([0x6d, 0x7e, 0x6e], .list [.int 10, .int 20])])]

theorem sample_wf : sample.WF := by
  simp [sample, Val.WF, WFList, WFMap, AMap.Sorted, AMap.above]

theorem sample_fit : ListsFit sample := by
  refine fits_map fun k c h => ?_
  rcases get_one h with ⟨_, rfl⟩
  refine fits_map fun k c h => ?_
  rcases get_one h with ⟨_, rfl⟩
  refine fits_list (by decide) fun c h => ?_
  simp only [List.mem_cons, List.not_mem_nil, or_false] at h
  rcases h with rfl | rfl
  · exact fits_leaf rfl rfl
  · exact fits_leaf rfl rfl

example (p : Nat) : pointerLookup p sample (pointerText [[0x61, 0x2f, 0x62], [0x6d, 0x7e, 0x6e], natDec 1]) =
    (sample, .ok (.int 20)) :=
  lookup_finds p sample sample_wf sample_fit _ _ (.member rfl (.member rfl (.item rfl .here)))

/-- The hypothesis of `lookup_exact_partial` is met by ordinary tokens. -/
example : ∀ t ∈ [[0x61, 0x2f, 0x62], [0x6d, 0x7e, 0x6e], natDec 7], Proper t := by
  intro t ht
  simp only [List.mem_cons, List.not_mem_nil, or_false] at ht
  rcases ht with rfl | rfl | rfl
  · exact .inr (.inr (.inr ⟨_, _, rfl, by decide⟩))
  · exact .inr (.inr (.inr ⟨_, _, rfl, by decide⟩))
  · exact .inl ⟨7, by decide, rfl⟩

/-- Not exact for every token: an index is taken modulo 2^32, so that `/4294967296` finds the
first element. -/
theorem lookup_exact_false (p : Nat) (x : Val) :
    pointerLookup p (.list [x]) (pointerText [natDec (2 ^ 32)]) = (.list [x], .ok x) ∧
      ∀ w, ¬ Reaches (.list [x]) [natDec (2 ^ 32)] w := by
  constructor
  · simp only [pointerLookup, pointerOp_text, opTokens, opLast, opList, if_neg (natDec_ne_dash _),
      isIndex_natDec (show 2 ^ 32 < 2 ^ 64 by decide), opIndex]
    rfl
  · intro w h
    generalize hn : natDec (2 ^ 32) = t at h
    cases h with
    | @item _ n c _ _ h _ =>
      rw [← natDec_inj hn] at h
      have := getElem?_lt h
      simp at this

/-- The tokens of a path. -/
def pathToken : PathElem → Bytes
  | .key k => k
  | .index i => natDec i.toNat

theorem formPointer_parts (q : VPath) : formPointer q = (q.map pathToken).flatMap fun t => 0x2f :: t := by
  induction q with
  | nil => rfl
  | cons e q ih =>
    simp only [formPointer, List.flatMap_cons, List.map_cons] at ih ⊢
    rw [ih]
    cases e <;> rfl

theorem natDec_plain (n : Nat) : ∀ c ∈ natDec n, c ≠ 0x2f ∧ c ≠ 0x7e := by
  intro c hc
  have := natDec_all_digits n c hc
  constructor <;> (rintro rfl; revert this; decide)

theorem components_formPointer (q : VPath) (h : ∀ k, .key k ∈ q → ∀ c ∈ k, c ≠ 0x2f ∧ c ≠ 0x7e) :
    components (formPointer q) = some (q.map pathToken) := by
  have hp : ∀ t ∈ q.map pathToken, ∀ c ∈ t, c ≠ 0x2f ∧ c ≠ 0x7e := by
    intro t ht
    obtain ⟨e, he, rfl⟩ := List.mem_map.mp ht
    cases e with
    | key k => exact h k he
    | index i => exact natDec_plain _
  rw [formPointer_parts, components_parts _ (fun t ht hc => (hp t ht _ hc).1 rfl)]
  congr 1
  exact (List.map_congr_left fun t ht => unescape_plain fun hc => (hp t ht _ hc).2 rfl).trans (List.map_id _)

theorem walk_pathToken {v w : Val} {q : VPath} (h : getPath? v q = some w) :
    walk v (q.map pathToken) = some q := by
  induction q generalizing v with
  | nil => rfl
  | cons e q ih =>
    rw [getPath?_cons] at h
    cases hc : getElem? v e with
    | none => rw [hc] at h; cases h
    | some c =>
      rw [hc] at h
      have hch : childElem v (pathToken e) = some e := by
        cases e with
        | key k => cases v <;> first | rfl | cases hc
        | index i =>
          cases v with
          | list xs =>
            simp only [childElem, pathToken, isIndex_natDec (show i.toNat < 2 ^ 64 by have := i.toNat_lt; omega),
              Option.map_some, UInt32.ofNat_toNat]
          | _ => cases hc
      simp only [List.map_cons, walk, hch, hc, ih h, Option.map_some]

/-- **C38.** The pointer text the library forms for a path leads back to the element at the path.
Partial: keys with `/` or `~` are excluded, they are not escaped. -/
theorem formPointer_leads_back_partial (p : Nat) (v : Val) (hw : v.WF) (q : VPath) (w : Val)
    (h : getPath? v q = some w) (hk : ∀ k, .key k ∈ q → ∀ c ∈ k, c ≠ 0x2f ∧ c ≠ 0x7e) :
    pointerLookup p v (formPointer q) = (v, .ok w) := by
  simp only [pointerLookup, pointerOp, components_formPointer q hk]
  rw [(opTokens_get p hw _).2 q w (walk_pathToken h) h]
  rfl

example (p : Nat) : pointerLookup p (.map [([0x61], .list [.int 1, .int 2])]) (formPointer [.key [0x61], .index 1]) =
    (.map [([0x61], .list [.int 1, .int 2])], .ok (.int 2)) :=
  formPointer_leads_back_partial p _ (by simp [Val.WF, WFList, WFMap, AMap.Sorted, AMap.above]) _ _ rfl
    (by intro k h; simp only [List.mem_cons, PathElem.key.injEq, reduceCtorEq, List.not_mem_nil, or_false] at h
        subst h; decide)

/-- A key with `/`: the pointer formed for the path finds nothing, or something else. -/
theorem formPointer_slash_false (p : Nat) (x y : Val) :
    pointerLookup p (.map [([0x61, 0x2f, 0x62], x)]) (formPointer [.key [0x61, 0x2f, 0x62]]) =
        (.map [([0x61, 0x2f, 0x62], x)], .throw .runtime) ∧
    pointerLookup p (.map [([0x7e], y), ([0x7e, 0x30], x)]) (formPointer [.key [0x7e, 0x30]]) =
        (.map [([0x7e], y), ([0x7e, 0x30], x)], .ok y) := ⟨rfl, rfl⟩

/-- **C38, C39.** A text that is not empty and does not start with a slash is no pointer: every
operation refuses it and leaves the document alone. -/
theorem pointer_malformed (p : Nat) (v x : Val) (c : UInt8) (r other : Bytes) (hc : c ≠ 0x2f) :
    pointerLookup p v (c :: r) = (v, .throw .runtime) ∧ pointerAdd p v (c :: r) x = (v, .throw .runtime) ∧
    pointerRemove p v (c :: r) = (v, .throw .runtime) ∧ pointerReplace p v (c :: r) x = (v, .throw .runtime) ∧
    pointerMove p v (c :: r) other = (v, .throw .runtime) ∧ pointerCopy p v (c :: r) other = (v, .throw .runtime) := by
  have h : components (c :: r) = none := by
    have hcut : (cut (c :: r)).1 = c :: (cut r).1 := by simp [cut, hc]
    exact if_neg (by rw [hcut]; exact List.cons_ne_nil _ _)
  simp only [pointerLookup, pointerAdd, pointerRemove, pointerReplace, pointerMove, pointerCopy, pointerOp, h]
  refine ⟨rfl, rfl, rfl, ?_, ?_, ?_⟩ <;> trivial

end Verif.Ext
