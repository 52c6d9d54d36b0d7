import Verif.Schema.Limits
/-!
# C37: required keys and unique items, on their own
-/

namespace Verif.Schema

section
variable (E : Env) (sub : Val → Val → Vd) (m : List (Bytes × Val)) (d : Val)

theorem strip_unique : Valid E sub m d ↔
    (∀ xs, d = .list xs → (∀ u, has m kUniqueItems u → u = .bool false ∨ (u = .bool true ∧
        ∀ (i j : Nat) x y, i < j → xs[i]? = some x → xs[j]? = some y → veq E.p x y = false))) ∧
      Valid E sub (strip [kUniqueItems] m) d := by
  constructor
  · intro v
    refine ⟨?_, ?_, ?_, ?_, ?_, ?_, ?_, ?_, ?_⟩
    · rintro s rfl; exact (v.array s rfl).unique
    · intro r h; exact v.ref r (has_strip.mp h).2
    · intro t h; exact v.type t (has_strip.mp h).2
    · intro e h; exact v.enum e (has_strip.mp h).2
    · intro h; exact (same_strip (by decide)).number (v.number h)
    · intro s h; exact (same_strip (by decide)).string (v.string s h)
    · intro s h
      have w := v.array s h
      refine ⟨?_, ?_, ?_, ?_, ?_⟩
      · intro l h; exact w.minItems l (has_strip.mp h).2
      · intro l h; exact w.maxItems l (has_strip.mp h).2
      · intro l h; exact absurd (by decide) (has_strip.mp h).1
      · intro p h; exact w.itemsEach p (has_strip.mp h).2
      · have e5 : AMap.get (strip [kUniqueItems] m) kAdditionalItems = AMap.get m kAdditionalItems := by
          rw [get_strip, if_neg (by decide)]
        intro p h
        simpa only [has, lacks, ExtraOk, e5] using w.itemsList p (has_strip.mp h).2
    · intro s h; exact (same_strip (by decide)).object (v.object s h)
    · exact (same_strip (by decide)).combinations v.combinations
  · rintro ⟨hc, v⟩
    refine ⟨?_, ?_, ?_, ?_, ?_, ?_, ?_, ?_⟩
    · intro r h; exact v.ref r (has_strip.mpr ⟨by decide, h⟩)
    · intro t h; exact v.type t (has_strip.mpr ⟨by decide, h⟩)
    · intro e h; exact v.enum e (has_strip.mpr ⟨by decide, h⟩)
    · intro h; exact (same_strip (by decide)).symm.number (v.number h)
    · intro s h; exact (same_strip (by decide)).symm.string (v.string s h)
    · intro s h
      have w := v.array s h
      refine ⟨fun l h => w.minItems l (has_strip.mpr ⟨by decide, h⟩), fun l h => w.maxItems l (has_strip.mpr ⟨by decide, h⟩), hc s h, ?_, ?_⟩
      · intro p h; exact w.itemsEach p (has_strip.mpr ⟨by decide, h⟩)
      · have e5 : AMap.get (strip [kUniqueItems] m) kAdditionalItems = AMap.get m kAdditionalItems := by
          rw [get_strip, if_neg (by decide)]
        intro p h
        simpa only [has, lacks, ExtraOk, e5] using w.itemsList p (has_strip.mpr ⟨by decide, h⟩)
    · intro s h; exact (same_strip (by decide)).symm.object (v.object s h)
    · exact (same_strip (by decide)).symm.combinations v.combinations

theorem strip_required : Valid E sub m d ↔
    (∀ dm, d = .map dm → (∀ r, has m kRequired r → ∃ ks, r = .list ks ∧ ∀ k ∈ ks, ∃ t x, k = .str t ∧ AMap.get dm t = some x)) ∧
      Valid E sub (strip [kRequired] m) d := by
  have e6 : AMap.get (strip [kRequired] m) kAdditionalProperties = AMap.get m kAdditionalProperties := by
    rw [get_strip, if_neg (by decide)]
  have e5 : AMap.get (strip [kRequired] m) kPatternProperties = AMap.get m kPatternProperties := by
    rw [get_strip, if_neg (by decide)]
  have e4 : AMap.get (strip [kRequired] m) kProperties = AMap.get m kProperties := by
    rw [get_strip, if_neg (by decide)]
  have e7 : AMap.get (strip [kRequired] m) kDependencies = AMap.get m kDependencies := by
    rw [get_strip, if_neg (by decide)]
  constructor
  · intro v
    refine ⟨?_, ?_, ?_, ?_, ?_, ?_, ?_, ?_, ?_⟩
    · rintro s rfl; exact (v.object s rfl).required
    · intro r h; exact v.ref r (has_strip.mp h).2
    · intro t h; exact v.type t (has_strip.mp h).2
    · intro e h; exact v.enum e (has_strip.mp h).2
    · intro h; exact (same_strip (by decide)).number (v.number h)
    · intro s h; exact (same_strip (by decide)).string (v.string s h)
    · intro s h; exact (same_strip (by decide)).array (v.array s h)
    · intro s h
      have w := v.object s h
      refine ⟨?_, ?_, ?_, ?_, ?_, ?_, ?_, ?_, ?_⟩
      · intro l h; exact w.minProperties l (has_strip.mp h).2
      · intro l h; exact w.maxProperties l (has_strip.mp h).2
      · intro l h; exact absurd (by decide) (has_strip.mp h).1
      · simpa only [has, e4] using w.propertiesForm
      · simpa only [has, e5] using w.patternsForm
      · simpa only [has, e4] using w.properties
      · simpa only [has, e5] using w.patterns
      · simpa only [has, lacks, ExtraOk, e4, e5, e6] using w.additional
      · simpa only [has, e7] using w.dependencies
    · exact (same_strip (by decide)).combinations v.combinations
  · rintro ⟨hc, v⟩
    refine ⟨?_, ?_, ?_, ?_, ?_, ?_, ?_, ?_⟩
    · intro r h; exact v.ref r (has_strip.mpr ⟨by decide, h⟩)
    · intro t h; exact v.type t (has_strip.mpr ⟨by decide, h⟩)
    · intro e h; exact v.enum e (has_strip.mpr ⟨by decide, h⟩)
    · intro h; exact (same_strip (by decide)).symm.number (v.number h)
    · intro s h; exact (same_strip (by decide)).symm.string (v.string s h)
    · intro s h; exact (same_strip (by decide)).symm.array (v.array s h)
    · intro s h
      have w := v.object s h
      refine ⟨fun l h => w.minProperties l (has_strip.mpr ⟨by decide, h⟩), fun l h => w.maxProperties l (has_strip.mpr ⟨by decide, h⟩), hc s h, ?_, ?_, ?_, ?_, ?_, ?_⟩
      · simpa only [has, e4] using w.propertiesForm
      · simpa only [has, e5] using w.patternsForm
      · simpa only [has, e4] using w.properties
      · simpa only [has, e5] using w.patterns
      · simpa only [has, lacks, ExtraOk, e4, e5, e6] using w.additional
      · simpa only [has, e7] using w.dependencies
    · exact (same_strip (by decide)).symm.combinations v.combinations

end

/-- C37: a schema requiring the keys `ks` accepts an object exactly when every one of them is
present and the schema without `required` accepts it. -/
theorem required_exact (E : Env) (m dm : List (Bytes × Val)) (ks : List Bytes)
    (h : has m kRequired (.list (ks.map .str))) :
    alone E (.map m) (.map dm) = .accept ↔
      (∀ k ∈ ks, ∃ x, AMap.get dm k = some x) ∧ alone E (.map (strip [kRequired] m)) (.map dm) = .accept := by
  rw [alone_accept, alone_accept, strip_required]
  refine and_congr_left fun _ => ?_
  simp only [Val.map.injEq, forall_eq']
  constructor
  · intro h' k hk
    obtain ⟨vs, e, h''⟩ := h' _ h
    cases e
    obtain ⟨t, x, ht, hx⟩ := h'' (.str k) (List.mem_map.mpr ⟨k, hk, rfl⟩)
    cases ht; exact ⟨x, hx⟩
  · intro h' r hr
    simp only [has] at h hr
    rw [h] at hr; cases hr
    refine ⟨_, rfl, fun k hk => ?_⟩
    obtain ⟨t, ht, rfl⟩ := List.mem_map.mp hk
    obtain ⟨x, hx⟩ := h' t ht
    exact ⟨t, x, rfl, hx⟩

/-- C37: a schema with `"uniqueItems": true` accepts a list exactly when no two items at different
positions are equal and the schema without `uniqueItems` accepts it; with `false` the keyword
has no effect. -/
theorem unique_exact (E : Env) (m : List (Bytes × Val)) (xs : List Val) (b : Bool)
    (h : has m kUniqueItems (.bool b)) :
    alone E (.map m) (.list xs) = .accept ↔
      (b = true → ∀ (i j : Nat) x y, i < j → xs[i]? = some x → xs[j]? = some y → veq E.p x y = false) ∧
      alone E (.map (strip [kUniqueItems] m)) (.list xs) = .accept := by
  rw [alone_accept, alone_accept, strip_unique]
  refine and_congr_left fun _ => ?_
  simp only [Val.list.injEq, forall_eq']
  constructor
  · rintro h' rfl
    rcases h' _ h with h' | h'
    · cases h'
    · exact h'.2
  · intro h' u hu
    simp only [has] at h hu
    rw [h] at hu; cases hu
    cases b
    · exact Or.inl rfl
    · exact Or.inr ⟨rfl, h' rfl⟩

example : has sampleSizes kRequired (.list ([[97]].map .str)) := rfl
example : has sampleSizes kUniqueItems (.bool true) := rfl

end Verif.Schema
