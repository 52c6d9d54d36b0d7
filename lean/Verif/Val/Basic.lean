import Verif.Path.Model
/-!
# The value tree

`Val` is the content of a `Variant` (include/Variant/Variant.h 60-75, the nine types of
`Variant::Type`; src/Variant.cc one vtable per type) without storage sharing: what a user
observes by reading.  Storage sharing (what assignment shares and copying separates) is
modelled separately in `Verif/Heap`.

* integers are 64-bit (`intmax_t`, `uintmax_t`);
* a float is the 64-bit IEEE-754 pattern of a `double`.  The stored field is a `long double`
  (include/Variant/VariantInternal.h 77); only floats whose value is a double's are modelled,
  which is what the parsers and `Assign(double)` produce;
* a map is a `std::map<std::string, Variant>`: an association list in strictly increasing
  key order;
* a blob is its list of buffers (src/Blob.cc).
-/

namespace Verif

inductive Val where
  | null
  | bool (b : Bool)
  | int (i : Int64)
  | uint (u : UInt64)
  | flt (bits : UInt64)
  | str (s : Bytes)
  | list (xs : List Val)
  | map (m : List (Bytes × Val))
  | blob (segs : List Bytes)
  deriving Repr

/-- The nine run-time types (include/Variant/Variant.h, `Variant::Type`). -/
inductive Ty where
  | null | bool | int | uint | flt | str | list | map | blob
  deriving DecidableEq, Repr

/-- `Variant::GetType` (src/Variant.cc, `vtable->type`). -/
def Val.ty : Val → Ty
  | .null => .null
  | .bool _ => .bool
  | .int _ => .int
  | .uint _ => .uint
  | .flt _ => .flt
  | .str _ => .str
  | .list _ => .list
  | .map _ => .map
  | .blob _ => .blob

instance : Inhabited Val := ⟨.null⟩

/-! ## Key order: `std::string::operator<` -/

/-- `std::string` comparison (`char_traits<char>::compare` is `memcmp`, bytes unsigned). -/
def keyLt : Bytes → Bytes → Bool
  | [], [] => false
  | [], _ :: _ => true
  | _ :: _, [] => false
  | a :: as, b :: bs => a.toNat < b.toNat || (a.toNat == b.toNat && keyLt as bs)

theorem keyLt_irrefl (a : Bytes) : keyLt a a = false := by
  induction a with
  | nil => rfl
  | cons x xs ih => simp [keyLt, ih]

theorem keyLt_trans {a b c : Bytes} (h1 : keyLt a b = true) (h2 : keyLt b c = true) :
    keyLt a c = true := by
  induction a generalizing b c with
  | nil =>
    cases b with
    | nil => simp [keyLt] at h1
    | cons y ys => cases c <;> simp_all [keyLt]
  | cons x xs ih =>
    cases b with
    | nil => simp [keyLt] at h1
    | cons y ys =>
      cases c with
      | nil => simp [keyLt] at h2
      | cons z zs =>
        simp only [keyLt, Bool.or_eq_true, Bool.and_eq_true, decide_eq_true_eq, beq_iff_eq] at *
        rcases h1 with h1 | ⟨h1, h1'⟩ <;> rcases h2 with h2 | ⟨h2, h2'⟩
        · left; omega
        · left; omega
        · left; omega
        · right; exact ⟨by omega, ih h1' h2'⟩

theorem keyLt_trichotomy (a b : Bytes) : keyLt a b = true ∨ a = b ∨ keyLt b a = true := by
  induction a generalizing b with
  | nil => cases b <;> simp [keyLt]
  | cons x xs ih =>
    cases b with
    | nil => simp [keyLt]
    | cons y ys =>
      simp only [keyLt, Bool.or_eq_true, Bool.and_eq_true, decide_eq_true_eq, beq_iff_eq,
        List.cons.injEq, ← UInt8.toNat_inj]
      rcases ih ys with h | h | h
      · rcases Nat.lt_trichotomy x.toNat y.toNat with h' | h' | h' <;> simp_all
      · rcases Nat.lt_trichotomy x.toNat y.toNat with h' | h' | h' <;> simp_all
      · rcases Nat.lt_trichotomy x.toNat y.toNat with h' | h' | h' <;> simp_all

theorem keyLt_asymm {a b : Bytes} (h : keyLt a b = true) : keyLt b a = false := by
  cases hb : keyLt b a with
  | false => rfl
  | true =>
    have := keyLt_trans h hb
    rw [keyLt_irrefl] at this; cases this

theorem keyLt_ne {a b : Bytes} (h : keyLt a b = true) : a ≠ b := by
  rintro rfl; rw [keyLt_irrefl] at h; cases h

/-! ## `std::map` as a sorted association list -/

namespace AMap
variable {α : Type u}

/-- `std::map::find`. -/
def get (m : List (Bytes × α)) (k : Bytes) : Option α :=
  match m with
  | [] => none
  | (k', v) :: r => if k' = k then some v else get r k

/-- `map[k] = v` / `insert` then assign: keeps key order. -/
def set (m : List (Bytes × α)) (k : Bytes) (v : α) : List (Bytes × α) :=
  match m with
  | [] => [(k, v)]
  | (k', v') :: r =>
    if k' = k then (k, v) :: r
    else if keyLt k k' then (k, v) :: (k', v') :: r
    else (k', v') :: set r k v

/-- `std::map::erase(key)`. -/
def erase (m : List (Bytes × α)) (k : Bytes) : List (Bytes × α) :=
  match m with
  | [] => []
  | (k', v) :: r => if k' = k then r else (k', v) :: erase r k

/-- All keys of `m` are greater than `k`. -/
def above (k : Bytes) (m : List (Bytes × α)) : Prop := ∀ p ∈ m, keyLt k p.1 = true

/-- Strictly increasing keys. -/
def Sorted : List (Bytes × α) → Prop
  | [] => True
  | (k, _) :: r => above k r ∧ Sorted r

theorem get_set_self (m : List (Bytes × α)) (k : Bytes) (v : α) : get (set m k v) k = some v := by
  induction m with
  | nil => simp [set, get]
  | cons p r ih =>
    obtain ⟨k', v'⟩ := p
    simp only [set]
    split
    · simp [get]
    · split
      · simp [get]
      · simp [get, ih, *]

theorem get_set_other (m : List (Bytes × α)) (k k2 : Bytes) (v : α) (h : k2 ≠ k) :
    get (set m k v) k2 = get m k2 := by
  induction m with
  | nil => simp [set, get, Ne.symm h]
  | cons p r ih =>
    obtain ⟨k', v'⟩ := p
    simp only [set]
    split
    · rename_i e; subst e; simp [get, Ne.symm h]
    · split
      · simp [get, Ne.symm h]
      · simp [get, ih]

theorem get_erase_other (m : List (Bytes × α)) (k k2 : Bytes) (h : k2 ≠ k) :
    get (erase m k) k2 = get m k2 := by
  induction m with
  | nil => rfl
  | cons p r ih =>
    obtain ⟨k', v'⟩ := p
    simp only [erase]
    split
    · rename_i e; subst e; simp [get, Ne.symm h]
    · simp [get, ih]

theorem get_none_of_above {m : List (Bytes × α)} {k : Bytes} (h : above k m) : get m k = none := by
  induction m with
  | nil => rfl
  | cons p r ih =>
    obtain ⟨k', v'⟩ := p
    have h1 := h (k', v') (by simp)
    simp only [get]
    rw [if_neg (Ne.symm (keyLt_ne h1))]
    exact ih (fun q hq => h q (by simp [hq]))

theorem get_erase_self {m : List (Bytes × α)} (hs : Sorted m) (k : Bytes) :
    get (erase m k) k = none := by
  induction m with
  | nil => rfl
  | cons p r ih =>
    obtain ⟨k', v'⟩ := p
    simp only [erase]
    split
    · rename_i e; subst e; exact get_none_of_above hs.1
    · simp [get, ih hs.2, *]

theorem mem_set {m : List (Bytes × α)} {k : Bytes} {v : α} {p : Bytes × α} (h : p ∈ set m k v) :
    p = (k, v) ∨ p ∈ m := by
  induction m with
  | nil => simp [set] at h; exact .inl h
  | cons q r ih =>
    obtain ⟨k', v'⟩ := q
    simp only [set] at h
    split at h
    · simp at h; rcases h with h | h
      · exact .inl h
      · exact .inr (by simp [h])
    · split at h
      · simp at h; rcases h with h | h | h
        · exact .inl h
        · exact .inr (by simp [h])
        · exact .inr (by simp [h])
      · simp at h; rcases h with h | h
        · exact .inr (by simp [h])
        · rcases ih h with h | h
          · exact .inl h
          · exact .inr (by simp [h])

theorem mem_erase {m : List (Bytes × α)} {k : Bytes} {p : Bytes × α} (h : p ∈ erase m k) : p ∈ m := by
  induction m with
  | nil => exact h
  | cons q r ih =>
    obtain ⟨k', v'⟩ := q
    simp only [erase] at h
    split at h
    · exact List.mem_cons_of_mem _ h
    · simp only [List.mem_cons] at h ⊢
      rcases h with h | h
      · exact .inl h
      · exact .inr (ih h)

theorem sorted_set {m : List (Bytes × α)} (hs : Sorted m) (k : Bytes) (v : α) : Sorted (set m k v) := by
  induction m with
  | nil => simp [set, Sorted, above]
  | cons q r ih =>
    obtain ⟨k', v'⟩ := q
    simp only [set]
    split
    · rename_i e; subst e; exact hs
    · rename_i hne
      split
      · rename_i hlt
        refine ⟨?_, hs⟩
        intro p hp
        simp only [List.mem_cons] at hp
        rcases hp with rfl | hp
        · exact hlt
        · exact keyLt_trans hlt (hs.1 p hp)
      · rename_i hge
        refine ⟨?_, ih hs.2⟩
        intro p hp
        rcases mem_set hp with rfl | hp
        · rcases keyLt_trichotomy k' k with h | h | h
          · exact h
          · exact absurd h hne
          · exact absurd h hge
        · exact hs.1 p hp

theorem sorted_erase {m : List (Bytes × α)} (hs : Sorted m) (k : Bytes) : Sorted (erase m k) := by
  induction m with
  | nil => trivial
  | cons q r ih =>
    obtain ⟨k', v'⟩ := q
    simp only [erase]
    split
    · exact hs.2
    · exact ⟨fun p hp => hs.1 p (mem_erase hp), ih hs.2⟩

theorem get_mem {m : List (Bytes × α)} {k : Bytes} {v : α} (h : get m k = some v) : (k, v) ∈ m := by
  induction m with
  | nil => cases h
  | cons q r ih =>
    obtain ⟨k', v'⟩ := q
    simp only [get] at h
    split at h
    · rename_i e; cases h; subst e; simp
    · exact List.mem_cons_of_mem _ (ih h)

theorem get_of_mem {m : List (Bytes × α)} (hs : Sorted m) {k : Bytes} {v : α} (h : (k, v) ∈ m) :
    get m k = some v := by
  induction m with
  | nil => cases h
  | cons q r ih =>
    obtain ⟨k', v'⟩ := q
    simp only [get]
    simp only [List.mem_cons, Prod.mk.injEq] at h
    rcases h with ⟨rfl, rfl⟩ | h
    · simp
    · rw [if_neg (keyLt_ne (hs.1 _ h))]
      exact ih hs.2 h

/-- Inserting at the end of a sorted list. -/
theorem set_append_last {m : List (Bytes × α)} {k : Bytes} {v : α}
    (h : ∀ p ∈ m, keyLt p.1 k = true) : set m k v = m ++ [(k, v)] := by
  induction m with
  | nil => rfl
  | cons q r ih =>
    obtain ⟨k', v'⟩ := q
    have h1 := h (k', v') (by simp)
    simp only [set]
    rw [if_neg (keyLt_ne h1), keyLt_asymm h1]
    simp [ih (fun p hp => h p (by simp [hp]))]

/-- Two sorted maps with the same lookups are equal. -/
theorem ext {m m' : List (Bytes × α)} (hs : Sorted m) (hs' : Sorted m')
    (h : ∀ k, get m k = get m' k) : m = m' := by
  induction m generalizing m' with
  | nil =>
    cases m' with
    | nil => rfl
    | cons p r => have := h p.1; simp [get] at this
  | cons p r ih =>
    obtain ⟨k, v⟩ := p
    cases m' with
    | nil => have := h k; simp [get] at this
    | cons q r' =>
      obtain ⟨k', v'⟩ := q
      have hk : k = k' := by
        rcases keyLt_trichotomy k k' with hlt | he | hlt
        · have := h k
          simp only [get, if_true] at this
          rw [if_neg (Ne.symm (keyLt_ne hlt)), get_none_of_above] at this
          · cases this
          · intro x hx; exact keyLt_trans hlt (hs'.1 x hx)
        · exact he
        · have := h k'
          simp only [get, if_true] at this
          rw [if_neg (Ne.symm (keyLt_ne hlt)), get_none_of_above] at this
          · cases this
          · intro x hx; exact keyLt_trans hlt (hs.1 x hx)
      subst hk
      have hv : v = v' := by have := h k; simpa [get] using this
      subst hv
      congr 1
      apply ih hs.2 hs'.2
      intro x
      have := h x
      simp only [get] at this
      by_cases hx : k = x
      · subst hx; rw [get_none_of_above hs.1, get_none_of_above hs'.1]
      · simpa [hx] using this

end AMap

/-! ## Well-formed values: every map has strictly increasing keys -/

mutual
/-- Every map anywhere in the value is a proper `std::map`. -/
def Val.WF : Val → Prop
  | .list xs => WFList xs
  | .map m => AMap.Sorted m ∧ WFMap m
  | _ => True
def WFList : List Val → Prop
  | [] => True
  | v :: vs => v.WF ∧ WFList vs
def WFMap : List (Bytes × Val) → Prop
  | [] => True
  | p :: ps => p.2.WF ∧ WFMap ps
end

theorem WFList_iff {xs : List Val} : WFList xs ↔ ∀ v ∈ xs, v.WF := by
  induction xs with
  | nil => simp [WFList]
  | cons x xs ih => simp [WFList, ih]

theorem WFMap_iff {m : List (Bytes × Val)} : WFMap m ↔ ∀ p ∈ m, p.2.WF := by
  induction m with
  | nil => simp [WFMap]
  | cons x xs ih => simp [WFMap, ih]

end Verif
