import Verif.Val.EraseProps
/-!
# Which exception a path operation throws (C123)

A path either leads to an element, or there is a first step that is missing: a value `c` which is
there and has no element `e`.  The theorems say which exception each operation throws, if any,
from `c` and `e` alone.
-/

namespace Verif.PathErr

/-- The path `p` of `v` breaks off: `q` leads to `c`, which has no element `e`; `r` is the rest. -/
structure Breaks (v : Val) (p q : VPath) (e : PathElem) (r : VPath) (c : Val) : Prop where
  path : p = q ++ e :: r
  there : getPath? v q = some c
  missing : getElem? c e = none

/-- `c` is neither null nor the container that the element `e` belongs to. -/
def Wrong (c : Val) (e : PathElem) : Prop := c.ty ≠ .null ∧ c.ty ≠ e.containerTy

instance (c : Val) (e : PathElem) : Decidable (Wrong c e) := by unfold Wrong; infer_instance

/-- The exception of looking up the missing element `e` of `c`. -/
def lookupErr (c : Val) (e : PathElem) : Err :=
  if Wrong c e then .unexpectedType
  else match e with
    | .key _ => .key
    | .index _ => .outOfRange

/-- The exception of storing at the missing element `e` of `c`, with the path going on to `r`. -/
def storeErr (c : Val) (e : PathElem) (r : VPath) : Option Err :=
  if Wrong c e then some .unexpectedType
  else if PathElem.index 0xFFFFFFFF ∈ e :: r then some .outOfRange
  else none

/-- The types that `Empty` is defined for. -/
def CanBeEmpty (t : Ty) : Prop := t = .null ∨ t = .str ∨ t = .list ∨ t = .map

instance (t : Ty) : Decidable (CanBeEmpty t) := by unfold CanBeEmpty; infer_instance

/-- The exception of erasing the missing element `e` of `c`, which the path `q` leads to, with the
path going on to `r`. -/
def eraseErr (q : VPath) (c : Val) (e : PathElem) (r : VPath) (rm : Bool) : Option Err :=
  if r = [] then
    if Wrong c e then some .unexpectedType
    else if e = .index 0xFFFFFFFF ∧ c.ty = .list ∧ getElem? c (.index 0) ≠ none then some .outOfRange
    else none
  else if rm = true ∧ q ≠ [] ∧ ¬ CanBeEmpty c.ty then some .invalidOperation
  else none

/-! ## Where a path breaks off -/

/-- Every path leads to an element or breaks off at exactly one place. -/
theorem breaks_iff (v : Val) (p : VPath) :
    getPath? v p = none ↔ ∃ q e r c, Breaks v p q e r c := by
  constructor
  · intro h
    induction p generalizing v with
    | nil => cases h
    | cons e p ih =>
      cases hc : getElem? v e with
      | none => exact ⟨[], e, p, v, rfl, rfl, hc⟩
      | some c =>
        rw [getPath?_cons, hc] at h
        obtain ⟨q, e', r, c', h1, h2, h3⟩ := ih c h
        exact ⟨e :: q, e', r, c', by rw [h1]; rfl, by rw [getPath?_cons, hc]; exact h2, h3⟩
  · rintro ⟨q, e, r, c, rfl, h2, h3⟩
    rw [getPath?_append, h2]
    simp [getPath?_cons, h3]

theorem getElemC_missing {c : Val} {e : PathElem} (h : getElem? c e = none) :
    getElemC c e = .throw (lookupErr c e) := by
  cases e with
  | key k =>
    cases c <;> simp_all [getElemC, getKeyC, lookupErr, Wrong, Val.ty, PathElem.containerTy, getElem?, getKey?]
  | index i =>
    cases c <;> simp_all [getElemC, getIndexC, lookupErr, Wrong, Val.ty, PathElem.containerTy, getElem?,
      getIndex?]

/-- C123: `GetPath` of a path that breaks off throws the exception of that lookup: a missing key,
an index out of range, or an unexpected type. -/
theorem get_throws {v c : Val} {p q r : VPath} {e : PathElem} (h : Breaks v p q e r c) :
    getPath v p = .throw (lookupErr c e) := by
  obtain ⟨rfl, h2, h3⟩ := h
  induction q generalizing v with
  | nil =>
    cases h2
    simp [getPath, getElemC_missing h3]
  | cons a q ih =>
    rw [getPath?_cons] at h2
    cases ha : getElem? v a with
    | none => rw [ha] at h2; cases h2
    | some d =>
      rw [ha] at h2
      simp only [List.cons_append, getPath, getElemC_iff.2 ha, Out.bind_ok]
      exact ih h2

/-! ## Storing -/

theorem setElem_missing {c x : Val} {e : PathElem} (h : getElem? c e = none) :
    (setElem c e x).2 = storeErr c e [] := by
  cases e with
  | key k => cases c <;> simp [setElem, setKey, storeErr, Wrong, Val.ty, PathElem.containerTy]
  | index i =>
    have key : ∀ xs : List Val, xs[i.toNat]? = none →
        (setIndexList xs i x).2 = if i = 0xFFFFFFFF then some .outOfRange else none := by
      intro xs hx
      have hl : ¬ i.toNat < xs.length := by
        intro hl; rw [List.getElem?_eq_getElem hl] at hx; cases hx
      by_cases hi : i = 0xFFFFFFFF
      · rw [if_pos hi]
        subst hi
        simp only [setIndexList, if_neg hl]
        rw [if_neg]
        simp
      · rw [if_neg hi]
        obtain ⟨w, hw⟩ := setIndexList_succeeds xs hi x
        rw [hw]
    cases c with
    | null =>
      simp only [setElem, setIndex]
      rw [key [] (by simp)]
      simp [storeErr, Wrong, Val.ty, eq_comm]
    | list xs =>
      simp only [setElem, setIndex]
      rw [key xs h]
      simp [storeErr, Wrong, Val.ty, PathElem.containerTy, eq_comm]
    | _ => simp [setElem, setIndex, storeErr, Wrong, Val.ty, PathElem.containerTy]

theorem set_missing {c x : Val} {e : PathElem} {r : VPath} (h : getElem? c e = none) :
    (setPath c (e :: r) x).2 = storeErr c e r := by
  induction r generalizing c e with
  | nil =>
    rw [setPath, h]
    simp only [if_true]
    exact setElem_missing h
  | cons f r ih =>
    rw [setPath, h]
    simp only [reduceCtorEq, if_false]
    have h1 := setElem_missing (x := .null) h
    cases hs : setElem c e .null with
    | mk w er =>
      rw [hs] at h1
      cases er with
      | some er =>
        simp only at h1 ⊢
        rw [h1]
        simp only [storeErr] at h1 ⊢
        split
        · rfl
        · rename_i hw
          rw [if_neg hw] at h1
          split at h1
          · rename_i hm
            rw [if_pos hm, if_pos (by simp only [List.mem_singleton] at hm; rw [hm]; simp)]
          · cases h1
      | none =>
        simp only at h1 ⊢
        rw [ih (getElem?_null f)]
        simp only [storeErr] at h1 ⊢
        have hw : ¬ Wrong c e := by intro hw; rw [if_pos hw] at h1; cases h1
        have hn : ¬ Wrong .null f := fun hw => hw.1 rfl
        have he : e ≠ .index 0xFFFFFFFF := by
          intro he; rw [if_neg hw, if_pos (by rw [he]; simp)] at h1; cases h1
        rw [if_neg hw, if_neg hn]
        simp only [List.mem_cons (a := PathElem.index 0xFFFFFFFF) (b := e), he.symm, false_or]

/-- C123: `SetPath` of a path that breaks off throws that the type is unexpected if the value
there is neither null nor the container of the next element; otherwise it creates what is
missing, and throws only for the largest 32-bit index. -/
theorem set_throws {v c : Val} {p q r : VPath} {e : PathElem} (x : Val) (h : Breaks v p q e r c) :
    (setPath v p x).2 = storeErr c e r := by
  obtain ⟨rfl, h2, h3⟩ := h
  induction q generalizing v with
  | nil => cases h2; exact set_missing h3
  | cons a q ih =>
    rw [getPath?_cons] at h2
    cases ha : getElem? v a with
    | none => rw [ha] at h2; cases h2
    | some d =>
      rw [ha] at h2
      rw [List.cons_append, setPath, ha]
      exact ih h2

/-- C123: storing at an element that is there never throws. -/
theorem set_there {v c : Val} {p : VPath} (x : Val) (h : getPath? v p = some c) :
    (setPath v p x).2 = none := by
  induction p generalizing v with
  | nil => rw [setPath]
  | cons a p ih =>
    rw [getPath?_cons] at h
    cases ha : getElem? v a with
    | none => rw [ha] at h; cases h
    | some d =>
      rw [ha] at h
      rw [setPath, ha]
      exact ih h

/-! ## Erasing -/

theorem eraseElem_missing {c : Val} {e : PathElem} {q : VPath} {rm : Bool}
    (hf : ∀ xs, c = .list xs → xs.length < 2 ^ 32) (h : getElem? c e = none) :
    (eraseElem c e).2 = eraseErr q c e [] rm := by
  cases e with
  | key k => cases c <;> simp [eraseElem, eraseKey, eraseErr, Wrong, Val.ty, PathElem.containerTy]
  | index i =>
    cases c with
    | list xs =>
      have hl := hf xs rfl
      have hx : ¬ i.toNat < xs.length := by
        intro hl
        simp only [getElem?, getIndex?, List.getElem?_eq_getElem hl] at h; cases h
      have hi := i.toNat_lt
      have h1 : (i + 1).toNat = (i.toNat + 1) % 2 ^ 32 := by rw [UInt32.toNat_add]; rfl
      have hm : i = 0xFFFFFFFF ↔ i.toNat = 2 ^ 32 - 1 := by
        rw [← UInt32.toNat_inj]; exact Iff.rfl
      have hz : getElem? (.list xs) (.index 0) ≠ none ↔ 0 < xs.length := by
        simp only [getElem?, getIndex?]
        cases xs <;> simp
      simp only [eraseElem, eraseIndex, Nat.mod_eq_of_lt hl, eraseErr, if_true, PathElem.index.injEq]
      rw [if_neg (show ¬ Wrong (.list xs) (.index i) from fun hw => hw.2 rfl)]
      by_cases hc : i = 0xFFFFFFFF ∧ 0 < xs.length
      · rw [if_pos (by have := hm.1 hc.1; have := hc.2; rw [h1]; omega), if_neg hx]
        rw [if_pos ⟨hc.1, rfl, hz.2 hc.2⟩]
      · rw [if_neg (by rw [h1]; intro h2; apply hc; rw [hm]; omega), if_neg hx]
        rw [if_neg (fun ⟨a, _, b⟩ => hc ⟨a, hz.1 b⟩)]
    | _ => simp [eraseElem, eraseIndex, eraseErr, Wrong, Val.ty, PathElem.containerTy]

theorem empty_of {v : Val} (h : CanBeEmpty v.ty) : ∃ b, empty v = .ok b := by
  cases v <;> simp [CanBeEmpty, Val.ty] at h <;> exact ⟨_, rfl⟩

theorem empty_not {v : Val} (h : ¬ CanBeEmpty v.ty) : empty v = .throw .invalidOperation := by
  cases v <;> first | rfl | (exact absurd (by simp [CanBeEmpty, Val.ty]) h)

theorem containerTy_can (e : PathElem) : CanBeEmpty e.containerTy := by
  cases e <;> simp [PathElem.containerTy, CanBeEmpty]

/-- What happens above the value in which an element is erased. -/
theorem erase_up {v d : Val} {a f : PathElem} {p : VPath} {rm : Bool} (ha : getElem? v a = some d) :
    (erasePath v (a :: f :: p) rm).2 =
      match (erasePath d (f :: p) rm).2 with
      | some er => some er
      | none => if rm = true ∧ ¬ CanBeEmpty (erasePath d (f :: p) rm).1.ty then some .invalidOperation
                else none := by
  rw [erasePath, ha]
  simp only
  cases hr : erasePath d (f :: p) rm with
  | mk c' er =>
    cases er with
    | some er => rfl
    | none =>
      simp only
      cases rm with
      | false => simp
      | true =>
        simp only [if_true, true_and]
        by_cases hc : CanBeEmpty c'.ty
        · rw [if_neg (fun h => h hc)]
          obtain ⟨b, hb⟩ := empty_of hc
          rw [hb]
          cases b with
          | false => rfl
          | true =>
            obtain ⟨w, hw⟩ := eraseElem_there (getElem?_putElem_self (c' := c') ha)
            simp [hw]
        · rw [if_pos hc, empty_not hc]

/-- A path operation does not change the type of the value it starts in. -/
theorem erase_ty {v : Val} {p : VPath} {rm : Bool} : (erasePath v p rm).1.ty = v.ty := by
  match p with
  | [] => rfl
  | [e] =>
    rw [erasePath]
    cases h : eraseElem v e with
    | mk w er =>
      cases er with
      | none => exact eraseElem_ty h
      | some er => rw [eraseElem_err h]
  | e :: e' :: q =>
    rw [erasePath]
    split
    · rfl
    · rename_i c hc
      split
      · exact putElem_ty
      · rename_i c' hr
        simp only
        split
        · split
          · cases h : eraseElem (putElem v e c') e with
            | mk w er =>
              cases er with
              | none => exact (eraseElem_ty h).trans putElem_ty
              | some er => rw [eraseElem_err h]; exact putElem_ty
          · exact putElem_ty
          · exact putElem_ty
          · exact putElem_ty
        · exact putElem_ty

/-- C123: `ErasePath` of a path that breaks off.  If only the last element is missing it throws
that the type is unexpected if the value there is neither null nor the container of that element,
and is silent otherwise, except for the largest 32-bit index of a list that is not empty.  If
more than the last element is missing it is silent, except with pruning if the path stops at a
number, boolean or blob inside the document: the test whether it is empty then throws. -/
theorem erase_throws {v c : Val} {p q r : VPath} {e : PathElem} (rm : Bool) (hf : ListsFit v)
    (h : Breaks v p q e r c) : (erasePath v p rm).2 = eraseErr q c e r rm := by
  obtain ⟨rfl, h2, h3⟩ := h
  induction q generalizing v with
  | nil =>
    cases h2
    cases r with
    | nil => rw [List.nil_append, erasePath]; exact eraseElem_missing hf.here h3
    | cons f r =>
      rw [List.nil_append, erasePath, h3]
      simp [eraseErr]
  | cons a q ih =>
    rw [getPath?_cons] at h2
    cases ha : getElem? v a with
    | none => rw [ha] at h2; cases h2
    | some d =>
      rw [ha] at h2
      replace h2 : getPath? d q = some c := h2
      have hi := ih (hf.child ha) h2
      obtain ⟨f, s, hs⟩ : ∃ f s, q ++ e :: r = f :: s := by cases q <;> exact ⟨_, _, rfl⟩
      rw [List.cons_append, hs, erase_up ha, ← hs, hi, erase_ty]
      by_cases hr : r = []
      · subst hr
        simp only [eraseErr, if_true]
        by_cases hw : Wrong c e
        · rw [if_pos hw]
        · rw [if_neg hw]
          split
          · rename_i hh; rw [← hh]
          · rename_i hh
            rw [hh, if_neg]
            rintro ⟨-, h4⟩
            cases q with
            | nil =>
              obtain rfl : d = c := Option.some.inj h2
              by_cases hn : d.ty = .null
              · exact h4 (.inl hn)
              · by_cases hn' : d.ty = e.containerTy
                · exact h4 (hn' ▸ containerTy_can e)
                · exact hw ⟨hn, hn'⟩
            | cons b q =>
              rw [getPath?_cons] at h2
              cases hb : getElem? d b with
              | none => rw [hb] at h2; cases h2
              | some x => exact h4 (getElem?_some_ty hb ▸ containerTy_can b)
      · simp only [eraseErr, if_neg hr]
        cases q with
        | nil =>
          obtain rfl : d = c := Option.some.inj h2
          simp
        | cons b q =>
          have hd : CanBeEmpty d.ty := by
            rw [getPath?_cons] at h2
            cases hb : getElem? d b with
            | none => rw [hb] at h2; cases h2
            | some x => exact getElem?_some_ty hb ▸ containerTy_can b
          simp only [ne_eq, reduceCtorEq, not_false_eq_true, true_and, hd, not_true_eq_false, and_false,
            if_false]
          split
          · rename_i hh; rw [← hh]
          · rename_i hh; exact hh.symm

/-- C123: erasing an element that is there never throws. -/
theorem erase_there {v c : Val} {p : VPath} (rm : Bool) (h : getPath? v p = some c) :
    (erasePath v p rm).2 = none := by
  induction p generalizing v with
  | nil => rfl
  | cons a p ih =>
    rw [getPath?_cons] at h
    cases ha : getElem? v a with
    | none => rw [ha] at h; cases h
    | some d =>
      rw [ha] at h
      cases p with
      | nil =>
        rw [erasePath]
        obtain ⟨w, hw⟩ := eraseElem_there ha
        rw [hw]
      | cons f p =>
        rw [erase_up ha, ih h, erase_ty]
        rw [if_neg]
        rintro ⟨-, h4⟩
        have h' : getPath? d (f :: p) = some c := h
        rw [getPath?_cons] at h'
        cases hb : getElem? d f with
        | none => rw [hb] at h'; cases h'
        | some x => exact h4 (getElem?_some_ty hb ▸ containerTy_can f)

/-! ## Appending -/

/-- C123: `Append` throws, and changes nothing, exactly if the value is neither null nor a
list; the exception is not the one of the path operations. -/
theorem append_throws (v x : Val) :
    (append v x).2 = (if v.ty = .null ∨ v.ty = .list then none else some .unableToConvert) ∧
    ((append v x).2 ≠ none → (append v x).1 = v) := by
  cases v <;> simp [append, Val.ty]

/-! ## Concrete cases -/

/-- `{"a": [null, 7], "s": ""}`. -/
private def doc : Val :=
  .map [([97], .list [.null, .int 7]), ([115], .str [])]

private theorem doc_fits : ListsFit doc := by
  intro p xs h
  have hk : ∀ k c, getKey? doc k = some c → c = .list [.null, .int 7] ∨ c = .str [] := by
    intro k c hc
    simp only [getKey?, doc, AMap.get] at hc
    split at hc
    · cases hc; exact .inl rfl
    · split at hc <;> cases hc; exact .inr rfl
  match p with
  | [] => cases h
  | .index i :: p => simp [getPath?, getElem?, getIndex?, doc] at h
  | .key k :: p =>
    rw [getPath?_cons] at h
    cases hc : getElem? doc (.key k) with
    | none => rw [hc] at h; cases h
    | some c =>
      rw [hc] at h
      rcases hk k c hc with rfl | rfl
      · match p with
        | [] => cases h; decide
        | .key j :: p => simp [getPath?, getElem?, getKey?] at h
        | .index i :: p =>
          have hl : ∀ (d : Val) , d = .null ∨ d = .int 7 → ∀ p, getPath? d p ≠ some (.list xs) := by
            intro d hd p
            cases p with
            | nil => rcases hd with rfl | rfl <;> simp [getPath?]
            | cons f p => cases f <;> rcases hd with rfl | rfl <;> simp [getPath?, getElem?, getKey?, getIndex?]
          change (getPath? (.list [.null, .int 7]) (.index i :: p)) = _ at h
          rw [getPath?_cons] at h
          cases hd : getElem? (.list [.null, .int 7]) (.index i) with
          | none => rw [hd] at h; cases h
          | some d =>
            rw [hd] at h
            have hm : d ∈ [Val.null, .int 7] := List.mem_of_getElem? (l := [Val.null, .int 7]) hd
            simp only [List.mem_cons, List.not_mem_nil, or_false] at hm
            exact absurd h (hl d hm p)
      · match p with
        | [] => cases h
        | f :: p => cases f <;> simp [getPath?, getElem?, getKey?, getIndex?] at h

/-- A key of null: the lookup throws that there is no such key, storing works. -/
example : Breaks doc [.key [97], .index 0, .key [98]] [.key [97], .index 0] (.key [98]) [] .null ∧
    getPath doc [.key [97], .index 0, .key [98]] = .throw .key ∧
    (setPath doc [.key [97], .index 0, .key [98]] (.int 1)).2 = none := ⟨⟨rfl, rfl, rfl⟩, rfl, rfl⟩

/-- A key of a number. -/
example : Breaks doc [.key [97], .index 1, .key [98], .key [99]] [.key [97], .index 1] (.key [98]) [.key [99]]
      (.int 7) ∧
    getPath doc [.key [97], .index 1, .key [98], .key [99]] = .throw .unexpectedType ∧
    (setPath doc [.key [97], .index 1, .key [98], .key [99]] (.int 1)).2 = some .unexpectedType ∧
    (erasePath doc [.key [97], .index 1, .key [98], .key [99]] true).2 = some .invalidOperation ∧
    (erasePath doc [.key [97], .index 1, .key [98], .key [99]] false).2 = none :=
  ⟨⟨rfl, rfl, rfl⟩, rfl, rfl, rfl, rfl⟩

/-- The largest index of a list. -/
example : Breaks doc [.key [97], .index 0xFFFFFFFF] [.key [97]] (.index 0xFFFFFFFF) []
      (.list [.null, .int 7]) ∧
    getPath doc [.key [97], .index 0xFFFFFFFF] = .throw .outOfRange ∧
    (setPath doc [.key [97], .index 0xFFFFFFFF] (.int 1)).2 = some .outOfRange ∧
    (erasePath doc [.key [97], .index 0xFFFFFFFF] false).2 = some .outOfRange := by
  have hb : Breaks doc [.key [97], .index 0xFFFFFFFF] [.key [97]] (.index 0xFFFFFFFF) []
      (.list [.null, .int 7]) := ⟨rfl, rfl, by simp [getElem?, getIndex?]⟩
  refine ⟨hb, ?_, ?_, ?_⟩
  · rw [get_throws hb]; rfl
  · rw [set_throws _ hb]; rfl
  · rw [erase_throws _ doc_fits hb]; rfl

end Verif.PathErr
