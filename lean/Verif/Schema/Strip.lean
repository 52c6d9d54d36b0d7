import Verif.Schema.Total
/-!
# Taking keywords out of a schema

A schema accepts a value exactly when some of its keywords are satisfied and the schema without
those keywords accepts the value.
-/

namespace Verif.Schema

/-- The schema without the keywords `ks`. -/
def strip (ks : List Bytes) (m : List (Bytes × Val)) : List (Bytes × Val) := m.filter fun p => decide (p.1 ∉ ks)

theorem get_strip (ks : List Bytes) (m : List (Bytes × Val)) (k : Bytes) :
    AMap.get (strip ks m) k = if k ∈ ks then none else AMap.get m k := by
  induction m with
  | nil => simp [strip, AMap.get]
  | cons p r ih =>
    obtain ⟨k', v⟩ := p
    by_cases hk' : k' ∈ ks
    · have : strip ks ((k', v) :: r) = strip ks r := by simp [strip, hk']
      rw [this, ih]
      by_cases hk : k ∈ ks
      · simp [hk]
      · have : k' ≠ k := fun e => hk (e ▸ hk')
        simp [hk, AMap.get, this]
    · have : strip ks ((k', v) :: r) = (k', v) :: strip ks r := by simp [strip, hk']
      rw [this]
      simp only [AMap.get, ih]
      by_cases e : k' = k
      · subst e; simp [hk']
      · simp [e]

theorem has_strip {ks : List Bytes} {m : List (Bytes × Val)} {k : Bytes} {v : Val} :
    has (strip ks m) k v ↔ k ∉ ks ∧ has m k v := by
  unfold has; rw [get_strip]; split <;> simp_all

theorem lacks_strip {ks : List Bytes} {m : List (Bytes × Val)} {k : Bytes} :
    lacks (strip ks m) k ↔ k ∈ ks ∨ lacks m k := by
  unfold lacks; rw [get_strip]; split <;> simp_all

theorem valid_conj (E : Env) (sub : Val → Val → Vd) (m : List (Bytes × Val)) (d : Val) :
    Valid E sub m d ↔
    (∀ r, has m kRef (.str r) → ∃ t, E.loader r = .ok t ∧ sub t d = .accept) ∧
    (∀ t, has m kType t → TypeOk E t d) ∧
    (∀ v, has m kEnum v → ∃ vs, v = .list vs ∧ ∃ x ∈ vs, veq E.p x d = true) ∧
    (isNumber d = true → NumberOk E m d) ∧ (∀ s, d = .str s → StringOk E m s) ∧
    (∀ xs, d = .list xs → ArrayOk E sub m xs) ∧ (∀ dm, d = .map dm → ObjectOk E sub m dm) ∧
    CombinationsOk sub m d :=
  ⟨fun ⟨a, b, c, e, f, g, h, i⟩ => ⟨a, b, c, e, f, g, h, i⟩,
   fun ⟨a, b, c, e, f, g, h, i⟩ => ⟨a, b, c, e, f, g, h, i⟩⟩

/-- Schemas agreeing on the keywords of a group agree on the group. -/
structure Same (ks : List Bytes) (m m' : List (Bytes × Val)) : Prop where
  eq : ∀ k ∈ ks, AMap.get m k = AMap.get m' k

theorem same_strip {ks ks' : List Bytes} {m : List (Bytes × Val)} (h : ∀ k ∈ ks, k ∉ ks') :
    Same ks m (strip ks' m) :=
  ⟨fun k hk => by rw [get_strip, if_neg (h k hk)]⟩

theorem Same.symm {ks : List Bytes} {m m' : List (Bytes × Val)} (h : Same ks m m') : Same ks m' m :=
  ⟨fun k hk => (h.eq k hk).symm⟩

def numberKeys := [kMinimum, kExclusiveMinimum, kMaximum, kExclusiveMaximum, kMultipleOf, kDivisibleBy]
def stringKeys := [kMinLength, kMaxLength, kPattern, kFormat]
def arrayKeys := [kMinItems, kMaxItems, kUniqueItems, kItems, kAdditionalItems]
def objectKeys := [kMinProperties, kMaxProperties, kRequired, kProperties, kPatternProperties,
  kAdditionalProperties, kDependencies]
def combinationKeys := [kAllOf, kAnyOf, kOneOf, kNot]

theorem Same.number {E : Env} {m m' : List (Bytes × Val)} {d : Val} (h : Same numberKeys m m')
    (v : NumberOk E m d) : NumberOk E m' d := by
  have e := fun k hk => (h.eq k hk).symm
  have e1 := e kMinimum (by decide)
  have e2 := e kExclusiveMinimum (by decide)
  have e3 := e kMaximum (by decide)
  have e4 := e kExclusiveMaximum (by decide)
  have e5 := e kMultipleOf (by decide)
  have e6 := e kDivisibleBy (by decide)
  constructor
  · simpa only [has, e1, e2] using v.minimum
  · simpa only [has, e3, e4] using v.maximum
  · simpa only [has, lacks, e5, e6] using v.multipleOf

theorem Same.atLeast {m m' : List (Bytes × Val)} {k : Bytes} {n : Nat} (h : AMap.get m k = AMap.get m' k) :
    AtLeast m k n ↔ AtLeast m' k n := by simp only [AtLeast, has, h]
theorem Same.atMost {m m' : List (Bytes × Val)} {k : Bytes} {n : Nat} (h : AMap.get m k = AMap.get m' k) :
    AtMost m k n ↔ AtMost m' k n := by simp only [AtMost, has, h]

theorem Same.string {E : Env} {m m' : List (Bytes × Val)} {s : Bytes} (h : Same stringKeys m m')
    (v : StringOk E m s) : StringOk E m' s := by
  have e := fun k hk => (h.eq k hk)
  have e3 := e kPattern (by decide)
  have e4 := e kFormat (by decide)
  constructor
  · exact (Same.atLeast (e _ (by decide))).mp v.minLength
  · exact (Same.atMost (e _ (by decide))).mp v.maxLength
  · simpa only [has, ← e3] using v.pattern
  · simpa only [has, ← e4] using v.formatRegex
  · simpa only [has, ← e4] using v.formatOther

theorem Same.array {E : Env} {sub : Val → Val → Vd} {m m' : List (Bytes × Val)} {xs : List Val}
    (h : Same arrayKeys m m') (v : ArrayOk E sub m xs) : ArrayOk E sub m' xs := by
  have e := fun k hk => (h.eq k hk)
  have e3 := e kUniqueItems (by decide)
  have e4 := e kItems (by decide)
  have e5 := e kAdditionalItems (by decide)
  constructor
  · exact (Same.atLeast (e _ (by decide))).mp v.minItems
  · exact (Same.atMost (e _ (by decide))).mp v.maxItems
  · simpa only [has, ← e3] using v.unique
  · simpa only [has, ← e4] using v.itemsEach
  · simpa only [has, lacks, ExtraOk, ← e4, ← e5] using v.itemsList

theorem Same.object {E : Env} {sub : Val → Val → Vd} {m m' dm : List (Bytes × Val)}
    (h : Same objectKeys m m') (v : ObjectOk E sub m dm) : ObjectOk E sub m' dm := by
  have e := fun k hk => (h.eq k hk)
  have e3 := e kRequired (by decide)
  have e4 := e kProperties (by decide)
  have e5 := e kPatternProperties (by decide)
  have e6 := e kAdditionalProperties (by decide)
  have e7 := e kDependencies (by decide)
  constructor
  · exact (Same.atLeast (e _ (by decide))).mp v.minProperties
  · exact (Same.atMost (e _ (by decide))).mp v.maxProperties
  · simpa only [has, ← e3] using v.required
  · simpa only [has, ← e4] using v.propertiesForm
  · simpa only [has, ← e5] using v.patternsForm
  · simpa only [has, ← e4] using v.properties
  · simpa only [has, ← e5] using v.patterns
  · simpa only [has, lacks, ExtraOk, ← e4, ← e5, ← e6] using v.additional
  · simpa only [has, ← e7] using v.dependencies

theorem Same.combinations {sub : Val → Val → Vd} {m m' : List (Bytes × Val)} {d : Val}
    (h : Same combinationKeys m m') (v : CombinationsOk sub m d) : CombinationsOk sub m' d := by
  have e := fun k hk => (h.eq k hk)
  have e1 := e kAllOf (by decide)
  have e2 := e kAnyOf (by decide)
  have e3 := e kOneOf (by decide)
  have e4 := e kNot (by decide)
  constructor
  · simpa only [has, ← e1] using v.allOf
  · simpa only [has, ← e2] using v.anyOf
  · simpa only [has, ← e3] using v.oneOf
  · simpa only [has, ← e4] using v.not

/-- Accepting with the recorded verdicts of subschemas one level deeper. -/
abbrev deeper (E : Env) : Val → Val → Vd := fun s d => verdict (validate E recursionLimit 1 s d)

theorem alone_accept (E : Env) (m : List (Bytes × Val)) (d : Val) :
    alone E (.map m) d = .accept ↔ Valid E (deeper E) m d := by
  unfold alone
  rw [verdict_accept]
  simp only [validate]
  rw [if_neg (by decide), acc_body]

section
variable (E : Env) (sub : Val → Val → Vd) (m : List (Bytes × Val)) (d : Val)

theorem strip_number : Valid E sub m d ↔
    (isNumber d = true → NumberOk E m d) ∧ Valid E sub (strip numberKeys m) d := by
  constructor
  · intro v
    refine ⟨v.number, ?_, ?_, ?_, ?_, ?_, ?_, ?_, ?_⟩
    · intro r h; exact v.ref r (has_strip.mp h).2
    · intro t h; exact v.type t (has_strip.mp h).2
    · intro e h; exact v.enum e (has_strip.mp h).2
    · intro _
      constructor
      · intro l h; exact absurd (by decide) (has_strip.mp h).1
      · intro l h; exact absurd (by decide) (has_strip.mp h).1
      · rintro q (h | ⟨_, h⟩) <;> exact absurd (by decide) (has_strip.mp h).1
    · intro s h; exact (same_strip (by decide)).string (v.string s h)
    · intro s h; exact (same_strip (by decide)).array (v.array s h)
    · intro s h; exact (same_strip (by decide)).object (v.object s h)
    · exact (same_strip (by decide)).combinations v.combinations
  · rintro ⟨hn, v⟩
    refine ⟨?_, ?_, ?_, hn, ?_, ?_, ?_, ?_⟩
    · intro r h; exact v.ref r (has_strip.mpr ⟨by decide, h⟩)
    · intro t h; exact v.type t (has_strip.mpr ⟨by decide, h⟩)
    · intro e h; exact v.enum e (has_strip.mpr ⟨by decide, h⟩)
    · intro s h; exact (same_strip (by decide)).symm.string (v.string s h)
    · intro s h; exact (same_strip (by decide)).symm.array (v.array s h)
    · intro s h; exact (same_strip (by decide)).symm.object (v.object s h)
    · exact (same_strip (by decide)).symm.combinations v.combinations

theorem strip_combinations : Valid E sub m d ↔
    CombinationsOk sub m d ∧ Valid E sub (strip combinationKeys m) d := by
  constructor
  · intro v
    refine ⟨v.combinations, ?_, ?_, ?_, ?_, ?_, ?_, ?_, ?_⟩
    · intro r h; exact v.ref r (has_strip.mp h).2
    · intro t h; exact v.type t (has_strip.mp h).2
    · intro e h; exact v.enum e (has_strip.mp h).2
    · intro h; exact (same_strip (by decide)).number (v.number h)
    · intro s h; exact (same_strip (by decide)).string (v.string s h)
    · intro s h; exact (same_strip (by decide)).array (v.array s h)
    · intro s h; exact (same_strip (by decide)).object (v.object s h)
    · constructor <;> intro l h <;> exact absurd (by decide) (has_strip.mp h).1
  · rintro ⟨hc, v⟩
    refine ⟨?_, ?_, ?_, ?_, ?_, ?_, ?_, hc⟩
    · intro r h; exact v.ref r (has_strip.mpr ⟨by decide, h⟩)
    · intro t h; exact v.type t (has_strip.mpr ⟨by decide, h⟩)
    · intro e h; exact v.enum e (has_strip.mpr ⟨by decide, h⟩)
    · intro h; exact (same_strip (by decide)).symm.number (v.number h)
    · intro s h; exact (same_strip (by decide)).symm.string (v.string s h)
    · intro s h; exact (same_strip (by decide)).symm.array (v.array s h)
    · intro s h; exact (same_strip (by decide)).symm.object (v.object s h)

theorem strip_enum : Valid E sub m d ↔
    (∀ v, has m kEnum v → ∃ vs, v = .list vs ∧ ∃ x ∈ vs, veq E.p x d = true) ∧
      Valid E sub (strip [kEnum] m) d := by
  constructor
  · intro v
    refine ⟨v.enum, ?_, ?_, ?_, ?_, ?_, ?_, ?_, ?_⟩
    · intro r h; exact v.ref r (has_strip.mp h).2
    · intro t h; exact v.type t (has_strip.mp h).2
    · intro e h; exact v.enum e (has_strip.mp h).2
    · intro h; exact (same_strip (by decide)).number (v.number h)
    · intro s h; exact (same_strip (by decide)).string (v.string s h)
    · intro s h; exact (same_strip (by decide)).array (v.array s h)
    · intro s h; exact (same_strip (by decide)).object (v.object s h)
    · exact (same_strip (by decide)).combinations v.combinations
  · rintro ⟨hc, v⟩
    refine ⟨?_, ?_, hc, ?_, ?_, ?_, ?_, ?_⟩
    · intro r h; exact v.ref r (has_strip.mpr ⟨by decide, h⟩)
    · intro t h; exact v.type t (has_strip.mpr ⟨by decide, h⟩)
    · intro h; exact (same_strip (by decide)).symm.number (v.number h)
    · intro s h; exact (same_strip (by decide)).symm.string (v.string s h)
    · intro s h; exact (same_strip (by decide)).symm.array (v.array s h)
    · intro s h; exact (same_strip (by decide)).symm.object (v.object s h)
    · exact (same_strip (by decide)).symm.combinations v.combinations

theorem strip_stringLength : Valid E sub m d ↔
    (∀ s, d = .str s → AtLeast m kMinLength (size d) ∧ AtMost m kMaxLength (size d)) ∧
      Valid E sub (strip [kMinLength, kMaxLength] m) d := by
  constructor
  · intro v
    refine ⟨?_, ?_, ?_, ?_, ?_, ?_, ?_, ?_, ?_⟩
    · rintro s rfl; exact ⟨(v.string s rfl).minLength, (v.string s rfl).maxLength⟩
    · intro r h; exact v.ref r (has_strip.mp h).2
    · intro t h; exact v.type t (has_strip.mp h).2
    · intro e h; exact v.enum e (has_strip.mp h).2
    · intro h; exact (same_strip (by decide)).number (v.number h)
    · intro s h
      have w := v.string s h
      refine ⟨?_, ?_, ?_, ?_, ?_⟩
      · intro l h; exact absurd (by decide) (has_strip.mp h).1
      · intro l h; exact absurd (by decide) (has_strip.mp h).1
      · intro p h; exact w.pattern p (has_strip.mp h).2
      · intro h; exact w.formatRegex (has_strip.mp h).2
      · intro a b c h; exact w.formatOther a b c (has_strip.mp h).2
    · intro s h; exact (same_strip (by decide)).array (v.array s h)
    · intro s h; exact (same_strip (by decide)).object (v.object s h)
    · exact (same_strip (by decide)).combinations v.combinations
  · rintro ⟨hc, v⟩
    refine ⟨?_, ?_, ?_, ?_, ?_, ?_, ?_, ?_⟩
    · intro r h; exact v.ref r (has_strip.mpr ⟨by decide, h⟩)
    · intro t h; exact v.type t (has_strip.mpr ⟨by decide, h⟩)
    · intro e h; exact v.enum e (has_strip.mpr ⟨by decide, h⟩)
    · intro h; exact (same_strip (by decide)).symm.number (v.number h)
    · intro s h
      have w := v.string s h
      refine ⟨h ▸ (hc s h).1, h ▸ (hc s h).2, ?_, ?_, ?_⟩
      · intro p h; exact w.pattern p (has_strip.mpr ⟨by decide, h⟩)
      · intro h; exact w.formatRegex (has_strip.mpr ⟨by decide, h⟩)
      · intro a b c h; exact w.formatOther a b c (has_strip.mpr ⟨by
          simp only [List.mem_cons, Prod.mk.injEq, List.not_mem_nil, or_false] at c; decide, h⟩)
    · intro s h; exact (same_strip (by decide)).symm.array (v.array s h)
    · intro s h; exact (same_strip (by decide)).symm.object (v.object s h)
    · exact (same_strip (by decide)).symm.combinations v.combinations

theorem strip_array : Valid E sub m d ↔
    (∀ xs, d = .list xs → AtLeast m kMinItems (size d) ∧ AtMost m kMaxItems (size d) ∧
      (∀ u, has m kUniqueItems u → u = .bool false ∨ (u = .bool true ∧
        ∀ (i j : Nat) x y, i < j → xs[i]? = some x → xs[j]? = some y → veq E.p x y = false))) ∧
      Valid E sub (strip [kMinItems, kMaxItems, kUniqueItems] m) d := by
  constructor
  · intro v
    refine ⟨?_, ?_, ?_, ?_, ?_, ?_, ?_, ?_, ?_⟩
    · rintro s rfl; exact ⟨(v.array s rfl).minItems, (v.array s rfl).maxItems, (v.array s rfl).unique⟩
    · intro r h; exact v.ref r (has_strip.mp h).2
    · intro t h; exact v.type t (has_strip.mp h).2
    · intro e h; exact v.enum e (has_strip.mp h).2
    · intro h; exact (same_strip (by decide)).number (v.number h)
    · intro s h; exact (same_strip (by decide)).string (v.string s h)
    · intro s h
      have w := v.array s h
      refine ⟨?_, ?_, ?_, ?_, ?_⟩
      · intro l h; exact absurd (by decide) (has_strip.mp h).1
      · intro l h; exact absurd (by decide) (has_strip.mp h).1
      · intro l h; exact absurd (by decide) (has_strip.mp h).1
      · intro p h; exact w.itemsEach p (has_strip.mp h).2
      · have e5 : AMap.get (strip [kMinItems, kMaxItems, kUniqueItems] m) kAdditionalItems = AMap.get m kAdditionalItems := by
          rw [get_strip, if_neg (by decide)]
        intro p h
        simpa only [has, lacks, ExtraOk, e5] using w.itemsList p (has_strip.mp h).2
    · intro s h; exact (same_strip (by decide)).object (v.object s h)
    · exact (same_strip (by decide)).combinations v.combinations
  · rintro ⟨hc, v⟩
    refine ⟨?_, ?_, ?_, ?_, ?_, ?_, ?_, ?_⟩
    · intro r h; exact v.ref r (has_strip.mpr ⟨by decide, h⟩)
    · intro t h; exact v.type t (has_strip.mpr ⟨by decide, h⟩)
    · intro e h; exact v.enum e (has_strip.mpr ⟨by decide, h⟩)
    · intro h; exact (same_strip (by decide)).symm.number (v.number h)
    · intro s h; exact (same_strip (by decide)).symm.string (v.string s h)
    · intro s h
      have w := v.array s h
      refine ⟨h ▸ (hc s h).1, h ▸ (hc s h).2.1, (hc s h).2.2, ?_, ?_⟩
      · intro p h; exact w.itemsEach p (has_strip.mpr ⟨by decide, h⟩)
      · have e5 : AMap.get (strip [kMinItems, kMaxItems, kUniqueItems] m) kAdditionalItems = AMap.get m kAdditionalItems := by
          rw [get_strip, if_neg (by decide)]
        intro p h
        simpa only [has, lacks, ExtraOk, e5] using w.itemsList p (has_strip.mpr ⟨by decide, h⟩)
    · intro s h; exact (same_strip (by decide)).symm.object (v.object s h)
    · exact (same_strip (by decide)).symm.combinations v.combinations

theorem strip_object : Valid E sub m d ↔
    (∀ dm, d = .map dm → AtLeast m kMinProperties (size d) ∧ AtMost m kMaxProperties (size d) ∧
      (∀ r, has m kRequired r → ∃ ks, r = .list ks ∧ ∀ k ∈ ks, ∃ t x, k = .str t ∧ AMap.get dm t = some x)) ∧
      Valid E sub (strip [kMinProperties, kMaxProperties, kRequired] m) d := by
  have e6 : AMap.get (strip [kMinProperties, kMaxProperties, kRequired] m) kAdditionalProperties = AMap.get m kAdditionalProperties := by
    rw [get_strip, if_neg (by decide)]
  have e5 : AMap.get (strip [kMinProperties, kMaxProperties, kRequired] m) kPatternProperties = AMap.get m kPatternProperties := by
    rw [get_strip, if_neg (by decide)]
  have e4 : AMap.get (strip [kMinProperties, kMaxProperties, kRequired] m) kProperties = AMap.get m kProperties := by
    rw [get_strip, if_neg (by decide)]
  have e7 : AMap.get (strip [kMinProperties, kMaxProperties, kRequired] m) kDependencies = AMap.get m kDependencies := by
    rw [get_strip, if_neg (by decide)]
  constructor
  · intro v
    refine ⟨?_, ?_, ?_, ?_, ?_, ?_, ?_, ?_, ?_⟩
    · rintro s rfl; exact ⟨(v.object s rfl).minProperties, (v.object s rfl).maxProperties, (v.object s rfl).required⟩
    · intro r h; exact v.ref r (has_strip.mp h).2
    · intro t h; exact v.type t (has_strip.mp h).2
    · intro e h; exact v.enum e (has_strip.mp h).2
    · intro h; exact (same_strip (by decide)).number (v.number h)
    · intro s h; exact (same_strip (by decide)).string (v.string s h)
    · intro s h; exact (same_strip (by decide)).array (v.array s h)
    · intro s h
      have w := v.object s h
      refine ⟨?_, ?_, ?_, ?_, ?_, ?_, ?_, ?_, ?_⟩
      · intro l h; exact absurd (by decide) (has_strip.mp h).1
      · intro l h; exact absurd (by decide) (has_strip.mp h).1
      · intro l h; exact absurd (by decide) (has_strip.mp h).1
      · simpa only [has, e4] using w.propertiesForm
      · simpa only [has, e5] using w.patternsForm
      · simpa only [has, e4] using w.properties
      · simpa only [has, e5] using w.patterns
      · simpa only [has, lacks, ExtraOk, e4, e5, e6] using w.additional
      · simpa only [has, e7] using w.dependencies
    · exact (same_strip (by decide)).combinations v.combinations
  · rintro ⟨hc, v⟩
    refine ⟨?_, ?_, ?_, ?_, ?_, ?_, ?_, ?_⟩
    · intro r h; exact v.ref r (has_strip.mpr ⟨by decide, h⟩)
    · intro t h; exact v.type t (has_strip.mpr ⟨by decide, h⟩)
    · intro e h; exact v.enum e (has_strip.mpr ⟨by decide, h⟩)
    · intro h; exact (same_strip (by decide)).symm.number (v.number h)
    · intro s h; exact (same_strip (by decide)).symm.string (v.string s h)
    · intro s h; exact (same_strip (by decide)).symm.array (v.array s h)
    · intro s h
      have w := v.object s h
      refine ⟨h ▸ (hc s h).1, h ▸ (hc s h).2.1, (hc s h).2.2, ?_, ?_, ?_, ?_, ?_, ?_⟩
      · simpa only [has, e4] using w.propertiesForm
      · simpa only [has, e5] using w.patternsForm
      · simpa only [has, e4] using w.properties
      · simpa only [has, e5] using w.patterns
      · simpa only [has, lacks, ExtraOk, e4, e5, e6] using w.additional
      · simpa only [has, e7] using w.dependencies
    · exact (same_strip (by decide)).symm.combinations v.combinations

end
end Verif.Schema
