import Verif.Schema.Accept
/-!
# Objects, and the whole schema
-/

namespace Verif.Schema

theorem compile_all (E : Env) (ps : List (Bytes × Val)) : (compile E ps).2 = true ↔
    ∀ k s, (k, s) ∈ ps → ∃ g, E.regex (k.takeWhile (· ≠ 0)) = some g := by
  induction ps with
  | nil => simp [compile]
  | cons a r ih =>
    obtain ⟨k, s⟩ := a
    simp only [compile]
    cases h : E.regex (k.takeWhile (· ≠ 0)) with
    | none =>
      simp only [Bool.false_eq_true, false_iff]
      intro h'
      obtain ⟨g, hg⟩ := h' k s (by simp)
      rw [h] at hg; cases hg
    | some f =>
      simp only [ih]
      constructor
      · intro h' k' s' hm
        rcases List.mem_cons.mp hm with e | hm
        · cases e; exact ⟨f, h⟩
        · exact h' k' s' hm
      · intro h' k' s' hm; exact h' k' s' (List.mem_cons_of_mem _ hm)

theorem compile_mem (E : Env) (ps : List (Bytes × Val)) (f : Bytes → Bool) (s : Val) :
    (f, s) ∈ (compile E ps).1 ↔ ∃ k, (k, s) ∈ ps ∧ E.regex (k.takeWhile (· ≠ 0)) = some f := by
  induction ps with
  | nil => simp [compile]
  | cons a r ih =>
    obtain ⟨k, s'⟩ := a
    simp only [compile]
    cases h : E.regex (k.takeWhile (· ≠ 0)) with
    | none =>
      simp only [ih]
      constructor
      · rintro ⟨k', hm, hk⟩; exact ⟨k', List.mem_cons_of_mem _ hm, hk⟩
      · rintro ⟨k', hm, hk⟩
        rcases List.mem_cons.mp hm with e | hm
        · cases e; rw [h] at hk; cases hk
        · exact ⟨k', hm, hk⟩
    | some g =>
      simp only [List.mem_cons, ih, Prod.mk.injEq]
      constructor
      · rintro (⟨rfl, rfl⟩ | ⟨k', hm, hk⟩)
        · exact ⟨k, Or.inl ⟨rfl, rfl⟩, h⟩
        · exact ⟨k', Or.inr hm, hk⟩
      · rintro ⟨k', ⟨rfl, rfl⟩ | hm, hk⟩
        · rw [h] at hk; cases hk; exact Or.inl ⟨rfl, rfl⟩
        · exact Or.inr ⟨k', hm, hk⟩

section
variable (rec : Val → Val → M)

theorem acc_property (m props : List (Bytes × Val)) (pats : List ((Bytes → Bool) × Val)) (k : Bytes) (x : Val) :
    Acc (vProperty rec m props pats k x) ↔
      (∀ s, AMap.get props k = some s → sub rec s x = .accept) ∧
      (∀ f s, (f, s) ∈ pats → f (k.takeWhile (· ≠ 0)) = true → sub rec s x = .accept) ∧
      (AMap.get props k = none → (∀ f s, (f, s) ∈ pats → ¬ f (k.takeWhile (· ≠ 0)) = true) →
        ExtraOk (sub rec) m kAdditionalProperties x) := by
  have hh : (pats.filter fun p => p.1 (k.takeWhile (· ≠ 0))) = [] ↔
      ∀ f s, (f, s) ∈ pats → ¬ f (k.takeWhile (· ≠ 0)) = true := by
    rw [List.filter_eq_nil_iff]
    exact ⟨fun h f s hm => h (f, s) hm, fun h p hm => h p.1 p.2 hm⟩
  have he : (∀ p ∈ pats.filter fun p => p.1 (k.takeWhile (· ≠ 0)), Acc (rec p.2 x)) ↔
      ∀ f s, (f, s) ∈ pats → f (k.takeWhile (· ≠ 0)) = true → sub rec s x = .accept := by
    simp only [List.mem_filter, verdict_accept]
    exact ⟨fun h f s hm hf => h (f, s) ⟨hm, hf⟩, fun h p hp => h p.1 p.2 hp.1 hp.2⟩
  simp only [vProperty, acc_seq, acc_each, he, hh, acc_ite, acc_extra, acc_ok, implies_true, and_true]
  cases hg : AMap.get props k <;> simp [verdict_accept]

theorem acc_properties (E : Env) (m dm : List (Bytes × Val)) : Acc (vProperties E rec m dm) ↔
    (∀ v, has m kProperties v → v.ty = .map) ∧
    (∀ v, has m kPatternProperties v → ∃ ps, v = .map ps ∧
      ∀ k s, (k, s) ∈ ps → ∃ g, E.regex (k.takeWhile (· ≠ 0)) = some g) ∧
    (∀ k x, (k, x) ∈ dm → ∀ ps s, has m kProperties (.map ps) → AMap.get ps k = some s →
      sub rec s x = .accept) ∧
    (∀ k x, (k, x) ∈ dm → ∀ ps q s, has m kPatternProperties (.map ps) → (q, s) ∈ ps →
      Matches E q k → sub rec s x = .accept) ∧
    (∀ k x, (k, x) ∈ dm →
      (∀ ps, has m kProperties (.map ps) → AMap.get ps k = none) →
      (∀ ps q s, has m kPatternProperties (.map ps) → (q, s) ∈ ps → ¬ Matches E q k) →
      ExtraOk (sub rec) m kAdditionalProperties x) := by
  have hP1 : (patternsOf E m).2 = true ↔ ∀ v, has m kPatternProperties v → ∃ ps, v = .map ps ∧
      ∀ k s, (k, s) ∈ ps → ∃ g, E.regex (k.takeWhile (· ≠ 0)) = some g := by
    simp only [patternsOf, has]
    cases h : AMap.get m kPatternProperties with
    | none => simp
    | some v =>
      cases v with
      | map ps =>
        simp only [compile_all, Option.some.injEq, forall_eq', Val.map.injEq]
        exact ⟨fun h => ⟨ps, rfl, h⟩, fun ⟨_, e, h⟩ => e ▸ h⟩
      | _ => simp
  have hP2 : ∀ f s, (f, s) ∈ (patternsOf E m).1 ↔ ∃ ps k, has m kPatternProperties (.map ps) ∧ (k, s) ∈ ps ∧
      E.regex (k.takeWhile (· ≠ 0)) = some f := by
    intro f s
    simp only [patternsOf, has]
    cases h : AMap.get m kPatternProperties with
    | none => simp
    | some v =>
      cases v with
      | map ps =>
        simp only [compile_mem, Option.some.injEq, Val.map.injEq]
        exact ⟨fun ⟨k, h⟩ => ⟨ps, k, rfl, h⟩, fun ⟨_, k, e, h⟩ => ⟨k, e ▸ h⟩⟩
      | _ => simp
  have hQ1 : (propertiesOf m).2 = true ↔ ∀ v, has m kProperties v → v.ty = .map := by
    simp only [propertiesOf, has]
    cases h : AMap.get m kProperties with
    | none => simp
    | some v => cases v <;> simp [Val.ty]
  have hQ2 : ∀ k s, AMap.get (propertiesOf m).1 k = some s ↔ ∃ ps, has m kProperties (.map ps) ∧ AMap.get ps k = some s := by
    intro k s
    simp only [propertiesOf, has]
    cases h : AMap.get m kProperties with
    | none => simp [AMap.get]
    | some v => cases v <;> simp [AMap.get]
  have hQ3 : ∀ k, AMap.get (propertiesOf m).1 k = none ↔ ∀ ps, has m kProperties (.map ps) → AMap.get ps k = none := by
    intro k
    simp only [propertiesOf, has]
    cases h : AMap.get m kProperties with
    | none => simp [AMap.get]
    | some v => cases v <;> simp [AMap.get]
  have hform : Acc (vProperties E rec m dm) ↔ (patternsOf E m).2 = true ∧ (propertiesOf m).2 = true ∧
      ∀ k x, (k, x) ∈ dm → Acc (vProperty rec m (propertiesOf m).1 (patternsOf E m).1 k x) := by
    simp only [vProperties, acc_seq, acc_go, acc_each, Bool.not_eq_eq_eq_not, Bool.not_false]
    exact and_congr_right fun _ => and_congr_right fun _ =>
      ⟨fun h k x hm => h (k, x) hm, fun h p hm => h p.1 p.2 hm⟩
  rw [hform, hP1, hQ1]
  simp only [acc_property, hP2, hQ2, hQ3]
  constructor
  · rintro ⟨h1, h2, h3⟩
    refine ⟨h2, h1, ?_, ?_, ?_⟩
    · intro k x hm ps s hp hs; exact (h3 k x hm).1 s ⟨ps, hp, hs⟩
    · rintro k x hm ps q s hp hs ⟨g, hg, hk⟩
      exact (h3 k x hm).2.1 g s ⟨ps, q, hp, hs, hg⟩ hk
    · intro k x hm hn hp
      refine (h3 k x hm).2.2 hn ?_
      rintro f s ⟨ps, q, hps, hs, hf⟩ hk
      exact hp ps q s hps hs ⟨f, hf, hk⟩
  · rintro ⟨h2, h1, h3, h4, h5⟩
    refine ⟨h1, h2, fun k x hm => ⟨?_, ?_, ?_⟩⟩
    · rintro s ⟨ps, hp, hs⟩; exact h3 k x hm ps s hp hs
    · rintro f s ⟨ps, q, hp, hs, hf⟩ hk; exact h4 k x hm ps q s hp hs ⟨f, hf, hk⟩
    · intro hn hp
      refine h5 k x hm hn ?_
      rintro ps q s hps hs ⟨g, hg, hk⟩
      exact hp g s ⟨ps, q, hps, hs, hg⟩ hk

theorem acc_required (m dm : List (Bytes × Val)) : Acc (vRequired m dm) ↔
    ∀ r, has m kRequired r → ∃ ks, r = .list ks ∧ ∀ k ∈ ks, ∃ t x, k = .str t ∧ AMap.get dm t = some x := by
  simp only [vRequired, acc_kw]
  refine forall_congr' fun r => imp_congr_right fun _ => ?_
  cases r with
  | list ks =>
    simp only [acc_each, Val.list.injEq]
    have : ∀ k : Val, Acc (requiredKey dm k) ↔ ∃ t x, k = .str t ∧ AMap.get dm t = some x := by
      intro k
      cases k with
      | str t =>
        simp only [requiredKey, Val.str.injEq]
        cases h : AMap.get dm t with
        | none => simp only [Option.isSome_none, Bool.false_eq_true, if_false, acc_err, false_iff]
                  rintro ⟨_, x, rfl, h'⟩; rw [h] at h'; cases h'
        | some x => simp only [Option.isSome_some, if_true, acc_ok, true_iff]; exact ⟨t, x, rfl, h⟩
      | _ => simp [requiredKey]
    simp only [this]
    exact ⟨fun h => ⟨ks, rfl, h⟩, fun ⟨_, e, h⟩ => e ▸ h⟩
  | _ => simp

theorem acc_depKey (dm : List (Bytes × Val)) (k : Bytes) : Acc (depKey dm k) ↔ (AMap.get dm k).isSome = true := by
  unfold depKey; cases AMap.get dm k <;> simp

theorem acc_dependencies (E : Env) (m dm : List (Bytes × Val)) : Acc (vDependencies E rec m dm) ↔
    ∀ v, has m kDependencies v → ∃ deps, v = .map deps ∧
    ∀ k dep, (k, dep) ∈ deps → (AMap.get dm k).isSome = true →
      (∃ t, dep = .str t ∧ (AMap.get dm t).isSome = true) ∨
      (∃ ks, dep = .list ks ∧ ∀ k ∈ ks, ∃ t, Build.asString E.ft k = .ok t ∧ (AMap.get dm t).isSome = true) ∨
      (∃ dm', dep = .map dm' ∧ sub rec dep (.map dm) = .accept) := by
  simp only [vDependencies, acc_kw]
  refine forall_congr' fun v => imp_congr_right fun _ => ?_
  cases v with
  | map deps =>
    simp only [acc_each, Val.map.injEq, acc_ite, acc_ok, implies_true, and_true]
    constructor
    · intro h
      refine ⟨deps, rfl, fun k dep hm hk => ?_⟩
      have := h (k, dep) hm hk
      cases dep with
      | str t => left; exact ⟨t, rfl, (acc_depKey dm t).mp this⟩
      | list ks =>
        right; left
        refine ⟨ks, rfl, fun k hk' => ?_⟩
        simp only [acc_each, acc_withOut, acc_depKey] at this
        exact this k hk'
      | map dm' => right; right; exact ⟨dm', rfl, verdict_accept.mpr this⟩
      | _ => simp at this
    · rintro ⟨_, rfl, h⟩ ⟨k, dep⟩ hm hk
      rcases h k dep hm hk with ⟨t, rfl, h1⟩ | ⟨ks, rfl, h1⟩ | ⟨dm', rfl, h1⟩
      · exact (acc_depKey dm t).mpr h1
      · simp only [acc_each, acc_withOut, acc_depKey]; exact h1
      · exact verdict_accept.mp h1
  | _ => simp

theorem acc_object (E : Env) (m : List (Bytes × Val)) (d : Val) :
    Acc (vObject E rec m d) ↔ ∀ dm, d = .map dm → ObjectOk E (sub rec) m dm := by
  cases d with
  | map dm =>
    simp only [vObject, vPropertyCount, acc_seq, acc_atLeast, acc_atMost, acc_required, acc_properties,
      acc_dependencies, Val.map.injEq, forall_eq']
    exact ⟨fun ⟨⟨a, b⟩, c, ⟨e, f, g, h, i⟩, j⟩ => ⟨a, b, c, e, f, g, h, i, j⟩,
      fun ⟨a, b, c, e, f, g, h, i, j⟩ => ⟨⟨a, b⟩, c, ⟨e, f, g, h, i⟩, j⟩⟩
  | _ => simp [vObject]

/-- The body accepts exactly the values that satisfy every keyword. -/
theorem acc_body (E : Env) (m : List (Bytes × Val)) (d : Val) :
    Acc (body E rec m d) ↔ Valid E (sub rec) m d := by
  simp only [body, acc_seq, acc_ref, acc_type, acc_enum, acc_numeric, acc_string, acc_array, acc_object,
    acc_combinations]
  exact ⟨fun ⟨a, b, c, e, f, g, h, i⟩ => ⟨a, b, c, e, f, g, h, i⟩,
    fun ⟨a, b, c, e, f, g, h, i⟩ => ⟨a, b, c, e, f, g, h, i⟩⟩

end
end Verif.Schema
