import Verif.Schema.Props
/-!
# Schemas without references stay below the recursion limit when they are not nested deeply
-/

namespace Verif.Schema

mutual
/-- How deeply a value is nested. -/
def height : Val → Nat
  | .list xs => heightList xs + 1
  | .map m => heightMap m + 1
  | _ => 0
def heightList : List Val → Nat
  | [] => 0
  | x :: xs => max (height x) (heightList xs)
def heightMap : List (Bytes × Val) → Nat
  | [] => 0
  | p :: m => max (height p.2) (heightMap m)
end

mutual
/-- No object inside the value has a key "$ref". -/
def refFree : Val → Bool
  | .list xs => refFreeList xs
  | .map m => refFreeMap m
  | _ => true
def refFreeList : List Val → Bool
  | [] => true
  | x :: xs => refFree x && refFreeList xs
def refFreeMap : List (Bytes × Val) → Bool
  | [] => true
  | p :: m => p.1 != kRef && refFree p.2 && refFreeMap m
end

theorem mem_list {xs : List Val} {x : Val} (h : x ∈ xs) (hf : refFreeList xs = true) :
    height x ≤ heightList xs ∧ refFree x = true := by
  induction xs with
  | nil => cases h
  | cons y ys ih =>
    simp only [refFreeList, Bool.and_eq_true] at hf
    rcases List.mem_cons.mp h with rfl | h
    · exact ⟨by simp only [heightList]; omega, hf.1⟩
    · have := ih h hf.2
      exact ⟨by simp only [heightList]; omega, this.2⟩

theorem mem_map {m : List (Bytes × Val)} {k : Bytes} {x : Val} (h : (k, x) ∈ m) (hf : refFreeMap m = true) :
    height x ≤ heightMap m ∧ refFree x = true ∧ k ≠ kRef := by
  induction m with
  | nil => cases h
  | cons y ys ih =>
    simp only [refFreeMap, Bool.and_eq_true, bne_iff_ne, ne_eq] at hf
    rcases List.mem_cons.mp h with rfl | h
    · exact ⟨by simp only [heightMap]; omega, hf.1.2, hf.1.1⟩
    · have := ih h hf.2
      exact ⟨by simp only [heightMap]; omega, this.2⟩

theorem get_mem {m : List (Bytes × Val)} {k : Bytes} {x : Val} (h : AMap.get m k = some x) : (k, x) ∈ m := by
  induction m with
  | nil => simp [AMap.get] at h
  | cons y ys ih =>
    obtain ⟨k', v⟩ := y
    simp only [AMap.get] at h
    split at h
    · cases h; subst_vars; simp
    · exact List.mem_cons_of_mem _ (ih h)

/-- A schema without references and nested `n` deep takes no chain of more than `n` steps. -/
theorem within_height (E : Env) : ∀ (n : Nat) (s d : Val), refFree s = true → height s ≤ n →
    Within E (n + 1) (s, d) := by
  intro n
  induction n with
  | zero =>
    rintro s d hf hh ⟨t, x⟩ hb
    have key : ∀ m, s = .map m → False := by rintro m rfl; simp [height] at hh
    cases hb <;> exact (key _ rfl).elim
  | succ n ih =>
    rintro s d hf hh ⟨t, x⟩ hb
    have go : ∀ m, s = .map m → ∀ k v, has m k v → height v ≤ n ∧ refFree v = true ∧ k ≠ kRef := by
      rintro m rfl k v hv
      simp only [height] at hh; simp only [refFree] at hf
      have := mem_map (get_mem hv) hf
      exact ⟨by omega, this.2⟩
    have inList : ∀ ss t, height (.list ss) ≤ n ∧ refFree (.list ss) = true → t ∈ ss →
        height t ≤ n ∧ refFree t = true := by
      rintro ss t ⟨h1, h2⟩ ht
      simp only [height] at h1; simp only [refFree] at h2
      have := mem_list ht h2
      exact ⟨by omega, this.2⟩
    have inMap : ∀ ps k t, height (.map ps) ≤ n ∧ refFree (.map ps) = true → (k, t) ∈ ps →
        height t ≤ n ∧ refFree t = true := by
      rintro ss k t ⟨h1, h2⟩ ht
      simp only [height] at h1; simp only [refFree] at h2
      have := mem_map ht h2
      exact ⟨by omega, this.2.1⟩
    have fin : height t ≤ n ∧ refFree t = true → Within E (n + 1) (t, x) := fun h => ih t x h.2 h.1
    cases hb with
    | ref a c => exact absurd rfl (go _ rfl _ _ a).2.2
    | allOf a c => have := go _ rfl _ _ a; exact fin (inList _ _ ⟨this.1, this.2.1⟩ c)
    | anyOf a c => have := go _ rfl _ _ a; exact fin (inList _ _ ⟨this.1, this.2.1⟩ c)
    | oneOf a c => have := go _ rfl _ _ a; exact fin (inList _ _ ⟨this.1, this.2.1⟩ c)
    | not a => have := go _ rfl _ _ a; exact fin ⟨this.1, this.2.1⟩
    | items a c => have := go _ rfl _ _ a; exact fin ⟨this.1, this.2.1⟩
    | itemsAt a c e => have := go _ rfl _ _ a; exact fin (inList _ _ ⟨this.1, this.2.1⟩ (List.mem_of_getElem? c))
    | additionalItems a c => have := go _ rfl _ _ a; exact fin ⟨this.1, this.2.1⟩
    | properties a c e => have := go _ rfl _ _ a; exact fin (inMap _ _ _ ⟨this.1, this.2.1⟩ (get_mem c))
    | patterns a c e => have := go _ rfl _ _ a; exact fin (inMap _ _ _ ⟨this.1, this.2.1⟩ c)
    | additionalProperties a c => have := go _ rfl _ _ a; exact fin ⟨this.1, this.2.1⟩
    | dependencies a c => have := go _ rfl _ _ a; exact fin (inMap _ _ _ ⟨this.1, this.2.1⟩ c)

/-- In particular every schema without references that is nested less than 100 deep satisfies the
hypothesis of `combinations_exact`. -/
theorem within_limit (E : Env) (s d : Val) (hf : refFree s = true) (hh : height s < recursionLimit) :
    Within E recursionLimit (s, d) := within_height E 99 s d hf (by unfold recursionLimit at hh; omega)

/-! ## The hypotheses are met, and needed -/

/-- {"anyOf": [{"type": "string"}, {"type": "null"}], "not": {"type": "null"}} -/
def sampleSchema : List (Bytes × Val) :=
  [(kAnyOf, .list [.map [(kType, .str wString)], .map [(kType, .str wNull)]]),
   (kNot, .map [(kType, .str wNull)])]

example (E : Env) (d : Val) : Within E recursionLimit (.map sampleSchema, d) :=
  within_limit E _ d (by decide +kernel) (by decide +kernel)

example : alone (envOf .null) (.map sampleSchema) (.str [65]) = .accept ∧
    alone (envOf .null) (.map sampleSchema) .null = .reject ∧
    alone (envOf .null) (.map [(kType, .str wString)]) (.str [65]) = .accept := by decide +kernel

/-- A schema of `allOf` nested `n` deep. -/
def chain : Nat → Val
  | 0 => .null
  | n + 1 => .map [(kAllOf, .list [chain n])]

/-- C35 needs the assumption about the recursion limit: a schema accepts a value on its own, and
`not` of it accepts the value as well. -/
theorem not_beyond_limit_false : alone (envOf .null) (chain 99) .null = .accept ∧
    alone (envOf .null) (.map [(kNot, chain 99)]) .null = .accept := by decide +kernel

end Verif.Schema
