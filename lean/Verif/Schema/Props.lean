import Verif.Schema.Strip
/-!
# Properties of schema validation: C34, C35, C36, C37
-/

namespace Verif.Schema

/-! ## C34 -/

/-- C34: whatever the schema, the data and the answers of the loader, validation has a result
after at most 101 nested calls: allowing more calls gives the same result. -/
theorem validation_returns (E : Env) (s d : Val) :
    ∃ r, ∀ fuel, recursionLimit + 1 ≤ fuel → validateTop E fuel s d = some r := by
  have hne := validate_finishes E (recursionLimit + 1) 0 (by omega)
  have hf := fun fuel (h : recursionLimit + 1 ≤ fuel) =>
    validate_fuel E fuel (recursionLimit + 1) 0
  unfold validateTop
  cases ht : topSchema E s d with
  | throw e => exact ⟨_, fun _ _ => rfl⟩
  | ub => exact ⟨_, fun _ _ => rfl⟩
  | ok t =>
    have h1 := hne t d (by omega)
    cases hv : validate E (recursionLimit + 1) 0 t d with
    | none => exact absurd hv h1
    | some r =>
      have : ∀ fuel, recursionLimit + 1 ≤ fuel → validate E fuel 0 t d = some r := by
        intro fuel h; rw [hf fuel h t d (by omega) (by omega) (by omega), hv]
      refine ⟨match r with
        | .go se => .ok ⟨false, se⟩
        | .stop e se => .ok ⟨e, se⟩
        | .exn e => .throw e
        | .ub => .ub, fun fuel h => ?_⟩
      simp only [this fuel h]
      cases r <;> rfl

/-- "#" -/
def hash : Bytes := [35]

/-- An environment for examples: every reference answers the given schema, an expression matches
the strings equal to it, and the empty expression is malformed. -/
def envOf (root : Val) : Env where
  p := 64
  ft := fun _ => []
  loader := fun _ => .ok root
  regex := fun re => if re = [] then none else some fun s => s == re

/-- The schema {"$ref": "#"} that is its own reference: a schema error, not an endless loop. -/
example : validateTop (envOf (.map [(kRef, .str hash)])) 101 (.map [(kRef, .str hash)]) .null =
    some (.ok ⟨false, true⟩) := by decide +kernel

/-- Two schemas that refer to each other through different keywords. -/
example : validateTop (envOf (.map [(kAllOf, .list [.map [(kRef, .str hash)]])])) 101
    (.map [(kNot, .map [(kRef, .str hash)])]) .null = some (.ok ⟨false, false⟩) := by decide +kernel

/-! ## The caller's view -/

/-- For a schema given as an object the caller sees no error exactly when it accepts. -/
theorem caller_accept (E : Env) (m : List (Bytes × Val)) (d : Val) :
    validateTop E (recursionLimit + 1) (.map m) d = some (.ok ⟨false, false⟩) ↔
      alone E (.map m) d = .accept := by
  have hr := validate_reported E (recursionLimit + 1) 0 (.map m) d
  have : topSchema E (.map m) d = .ok (.map m) := rfl
  unfold validateTop alone
  simp only [this]
  revert hr
  generalize validate E (recursionLimit + 1) 0 (.map m) d = r
  intro hr
  rcases r with _ | r
  · simp [verdict]
  · cases r with
    | go b => cases b <;> simp [verdict]
    | stop e b => cases e <;> cases b <;> simp_all [verdict]
    | exn => simp [verdict]
    | ub => simp [verdict]

/-! ## C35 -/

theorem within_le (E : Env) {n k : Nat} (hk : n ≤ k) (a : Val × Val) (h : Within E n a) : Within E k a := by
  induction k with
  | zero => have : n = 0 := by omega
            subst this; exact h
  | succ k ih =>
    by_cases e : n = k + 1
    · exact e ▸ h
    · exact within_mono E k a (ih (by omega))

/-- Where no chain of validation steps reaches the recursion limit, a schema accepts exactly the
values that satisfy each of its keywords, a subschema counting as satisfied when it accepts on
its own. -/
theorem accepts_iff_valid (E : Env) (m : List (Bytes × Val)) (d : Val)
    (hw : Within E recursionLimit (.map m, d)) :
    alone E (.map m) d = .accept ↔ Valid E (alone E) m d := by
  have h1 : alone E (.map m) d = verdict (body E (validate E recursionLimit 1) m d) := by
    unfold alone
    simp only [validate]
    rw [if_neg (by decide)]
  have h2 : body E (validate E recursionLimit 1) m d = body E (validate E (recursionLimit + 1) 0) m d := by
    refine body_congr E fun s x hs => ?_
    have := hw _ hs
    exact validate_depth E 99 s x recursionLimit (recursionLimit + 1) 1 0 this (by decide) (by decide) (by decide) (by decide)
  rw [h1, h2, verdict_accept, acc_body]
  exact Iff.rfl

theorem within_strip (E : Env) (ks : List Bytes) (m : List (Bytes × Val)) (d : Val) (n : Nat)
    (h : Within E n (.map m, d)) : Within E n (.map (strip ks m), d) := by
  cases n with
  | zero => exact h
  | succ n =>
    intro b hb
    refine h b ?_
    cases hb with
    | ref a c => exact .ref (has_strip.mp a).2 c
    | allOf a c => exact .allOf (has_strip.mp a).2 c
    | anyOf a c => exact .anyOf (has_strip.mp a).2 c
    | oneOf a c => exact .oneOf (has_strip.mp a).2 c
    | not a => exact .not (has_strip.mp a).2
    | items a c => exact .items (has_strip.mp a).2 c
    | itemsAt a c e => exact .itemsAt (has_strip.mp a).2 c e
    | additionalItems a c => exact .additionalItems (has_strip.mp a).2 c
    | properties a c e => exact .properties (has_strip.mp a).2 c e
    | patterns a c e => exact .patterns (has_strip.mp a).2 c e
    | additionalProperties a c => exact .additionalProperties (has_strip.mp a).2 c
    | dependencies a c => exact .dependencies (has_strip.mp a).2 c

/-- The listed subschemas of a keyword. -/
def listed (m : List (Bytes × Val)) (k : Bytes) (ss : List Val) : Prop := has m k (.list ss)

/-- C35: a schema accepts a value exactly when the value satisfies all subschemas listed under
`allOf`, at least one under `anyOf`, exactly one under `oneOf`, not the one under `not`, and the
schema without these keywords.  "Satisfies" is validation against the subschema on its own.
Assumed: the recursion limit is not reached, the three keywords hold lists, and validating a
listed subschema on its own ends normally. -/
theorem combinations_exact (E : Env) (m : List (Bytes × Val)) (d : Val)
    (hw : Within E recursionLimit (.map m, d))
    (hlist : ∀ k v, k ∈ [kAllOf, kAnyOf, kOneOf] → has m k v → ∃ ss, v = .list ss)
    (hnormal : ∀ s, Step E (.map m, d) (s, d) → alone E s d ≠ .abnormal) :
    alone E (.map m) d = .accept ↔
      (∀ ss, listed m kAllOf ss → ∀ s ∈ ss, alone E s d = .accept) ∧
      (∀ ss, listed m kAnyOf ss → ∃ s ∈ ss, alone E s d = .accept) ∧
      (∀ ss, listed m kOneOf ss → ∃ i : Nat, (∃ s, ss[i]? = some s ∧ alone E s d = .accept) ∧
        ∀ (j : Nat) s, ss[j]? = some s → alone E s d = .accept → j = i) ∧
      (∀ s, has m kNot s → ¬ alone E s d = .accept) ∧
      alone E (.map (strip combinationKeys m)) d = .accept := by
  have hrej : ∀ s, Step E (.map m, d) (s, d) → (alone E s d = .reject ↔ ¬ alone E s d = .accept) := by
    intro s hs
    have := hnormal s hs
    cases h : alone E s d <;> simp_all
  rw [accepts_iff_valid E m d hw, strip_combinations, accepts_iff_valid E _ d (within_strip E _ m d _ hw)]
  simp only [← and_assoc]
  refine and_congr_left fun _ => ?_
  simp only [and_assoc, listed]
  constructor
  · intro c
    refine ⟨?_, ?_, ?_, ?_⟩
    · intro ss hs
      obtain ⟨ss', e, h⟩ := c.allOf _ hs
      cases e; exact h
    · intro ss hs
      obtain ⟨pre, s, post, e, _, h⟩ := c.anyOf _ hs
      cases e; exact ⟨s, by simp, h⟩
    · intro ss hs
      obtain ⟨pre, s, post, e, h1, h⟩ := c.oneOf _ hs
      cases e
      refine ⟨pre.length, ⟨s, by simp, h⟩, fun j t hj ht => ?_⟩
      by_cases c1 : j < pre.length
      · rw [List.getElem?_append_left c1] at hj
        have := h1 t (List.mem_append_left _ (List.mem_of_getElem? hj))
        rw [ht] at this; cases this
      · rw [List.getElem?_append_right (by omega)] at hj
        by_cases c2 : j = pre.length
        · exact c2
        · obtain ⟨k, hk⟩ : ∃ k, j - pre.length = k + 1 := ⟨j - pre.length - 1, by omega⟩
          rw [hk, List.getElem?_cons_succ] at hj
          have := h1 t (List.mem_append_right _ (List.mem_of_getElem? hj))
          rw [ht] at this; cases this
    · intro s hs; exact (hrej s (.not hs)).mp (c.not s hs)
  · rintro ⟨a1, a2, a3, a4⟩
    refine ⟨?_, ?_, ?_, ?_⟩
    · intro v hv
      obtain ⟨ss, rfl⟩ := hlist _ v (by simp) hv
      exact ⟨ss, rfl, a1 ss hv⟩
    · intro v hv
      obtain ⟨ss, rfl⟩ := hlist _ v (by simp) hv
      have key : ∀ l : List Val, (∀ s ∈ l, s ∈ ss) → (∃ s ∈ l, alone E s d = .accept) →
          ∃ pre s post, l = pre ++ s :: post ∧ (∀ x ∈ pre, alone E x d = .reject) ∧ alone E s d = .accept := by
        intro l
        induction l with
        | nil => rintro _ ⟨s, hs, _⟩; cases hs
        | cons t l ih =>
          intro hm he
          by_cases ht : alone E t d = .accept
          · exact ⟨[], t, l, rfl, by simp, ht⟩
          · obtain ⟨s, hs, ha⟩ := he
            rcases List.mem_cons.mp hs with rfl | hs
            · exact absurd ha ht
            · obtain ⟨pre, s', post, rfl, h1, h2⟩ := ih (fun s hs => hm s (List.mem_cons_of_mem _ hs)) ⟨s, hs, ha⟩
              refine ⟨t :: pre, s', post, rfl, ?_, h2⟩
              intro x hx
              rcases List.mem_cons.mp hx with rfl | hx
              · exact (hrej x (.anyOf hv (hm x (by simp)))).mpr ht
              · exact h1 x hx
      obtain ⟨pre, s, post, rfl, h1, h2⟩ := key ss (fun _ h => h) (a2 ss hv)
      exact ⟨pre, s, post, rfl, h1, h2⟩
    · intro v hv
      obtain ⟨ss, rfl⟩ := hlist _ v (by simp) hv
      obtain ⟨i, ⟨s, hi, hs⟩, hu⟩ := a3 ss hv
      have hlt : i < ss.length := by
        rw [List.getElem?_eq_some_iff] at hi; exact hi.1
      have hsplit : ss = ss.take i ++ s :: ss.drop (i + 1) := by
        have := List.take_append_drop i ss
        rw [List.drop_eq_getElem_cons hlt] at this
        rw [List.getElem?_eq_some_iff] at hi
        rw [← hi.2]; exact this.symm
      refine ⟨ss.take i, s, ss.drop (i + 1), congrArg _ hsplit, ?_, hs⟩
      intro x hx
      have hmem : x ∈ ss := by
        rcases List.mem_append.mp hx with h | h
        · exact List.mem_of_mem_take h
        · exact List.mem_of_mem_drop h
      refine (hrej x (.oneOf hv hmem)).mpr fun ha => ?_
      rcases List.mem_append.mp hx with h | h
      · obtain ⟨j, hj⟩ := List.getElem?_of_mem h
        rw [List.getElem?_take] at hj
        split at hj
        · have := hu j x hj ha; omega
        · cases hj
      · obtain ⟨j, hj⟩ := List.getElem?_of_mem h
        rw [List.getElem?_drop] at hj
        have := hu (i + 1 + j) x hj ha; omega
    · intro s hs; exact (hrej s (.not hs)).mpr (a4 s hs)

end Verif.Schema
