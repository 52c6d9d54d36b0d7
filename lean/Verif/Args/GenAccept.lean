import Verif.Args.GenResult
import Verif.Schema.Props
/-!
# When a value satisfies the schema
-/

namespace Verif.Args
open Verif JsonDrv Schema

/-! ## Validation ends with a verdict -/

def Normal (r : M) : Prop := verdict r ≠ .abnormal

theorem normal_iff {r : M} : Normal r ↔ (∃ b, r = some (.go b)) ∨ ∃ a b, r = some (.stop a b) := by
  unfold Normal verdict
  constructor
  · intro h; split at h
    · exact .inl ⟨_, rfl⟩
    · exact .inl ⟨_, rfl⟩
    · exact .inr ⟨_, _, rfl⟩
    · exact absurd rfl h
  · rintro (⟨b, rfl⟩ | ⟨a, b, rfl⟩)
    · cases b <;> nofun
    · nofun

theorem normal_go (b : Bool) : Normal (some (.go b)) := normal_iff.2 (.inl ⟨b, rfl⟩)
theorem normal_ok : Normal ok := normal_go _
theorem normal_err : Normal err := by unfold err; exact normal_iff.2 (by first | exact .inl ⟨_, rfl⟩ | exact .inr ⟨_, _, rfl⟩)
theorem normal_serr : Normal serr := by unfold serr; exact normal_iff.2 (by first | exact .inl ⟨_, rfl⟩ | exact .inr ⟨_, _, rfl⟩)

theorem normal_seq {a b : M} (ha : Normal a) (hb : Normal b) : Normal (seq a b) := by
  rcases normal_iff.1 ha with ⟨x, rfl⟩ | ⟨x, y, rfl⟩
  · rcases normal_iff.1 hb with ⟨z, rfl⟩ | ⟨z, u, rfl⟩
    · unfold seq; exact normal_go _
    · unfold seq; exact normal_iff.2 (.inr ⟨_, _, rfl⟩)
  · unfold seq; exact normal_iff.2 (.inr ⟨_, _, rfl⟩)

theorem normal_each {α : Type} {f : α → M} {xs : List α} (h : ∀ x ∈ xs, Normal (f x)) : Normal (each f xs) := by
  induction xs with
  | nil => exact normal_ok
  | cons x xs ih => exact normal_seq (h x (by simp)) (ih fun y hy => h y (by simp [hy]))

theorem kw_lacks {m : List (Bytes × Val)} {k : Bytes} {f : Val → M} (h : AMap.get m k = none) : kw m k f = ok := by
  unfold kw; rw [h]

theorem normal_kw {m : List (Bytes × Val)} {k : Bytes} {f : Val → M} (h : ∀ v, has m k v → Normal (f v)) : Normal (kw m k f) := by
  unfold kw; split
  · exact normal_ok
  · next h' => exact h _ h'

/-- The keywords of the schemas of groups. -/
def groupKeys : List Bytes := [kProperties, kRequired, kNot, kAnyOf, kOneOf]

theorem normal_body {E : Env} {rec : Val → Val → M} {m : List (Bytes × Val)} (q : KeysIn m groupKeys) (d : Val)
    (hprop : ∀ P k s x, has m kProperties (.map P) → AMap.get P k = some s → Normal (rec s x))
    (hnot : ∀ s, has m kNot s → Normal (rec s d))
    (hlist : ∀ ss, has m kAnyOf (.list ss) ∨ has m kOneOf (.list ss) → ∀ s ∈ ss, Normal (rec s d)) : Normal (body E rec m d) := by
  have hn : ∀ k f, k ∉ groupKeys → Normal (kw m k f) := fun k f hk => by rw [kw_lacks (q k hk)]; exact normal_ok
  have hsz : ∀ k bad, k ∉ groupKeys → Normal (sizeLimit m k bad) := fun k bad hk => hn k _ hk
  have hone : ∀ ss, (∀ s ∈ ss, Normal (rec s d)) → ∀ n, Normal (oneOfLoop rec d n ss) := by
    intro ss hrec
    induction ss with
    | nil => intro n; rw [oneOfLoop]; split; exact normal_err; exact normal_ok
    | cons s ss ih =>
      intro n
      have ih := ih (fun s hs => hrec s (by simp [hs]))
      rw [oneOfLoop]
      rcases normal_iff.1 (hrec s (by simp)) with ⟨b, e⟩ | ⟨a, b, e⟩ <;> rw [e]
      · cases b with
        | false => dsimp only; split; exact normal_err; exact ih _
        | true => exact ih _
      · exact ih _
  have hany : ∀ ss, (∀ s ∈ ss, Normal (rec s d)) → Normal (anyOfLoop rec d ss) := by
    intro ss hrec
    induction ss with
    | nil => exact normal_err
    | cons s ss ih =>
      have ih := ih (fun s hs => hrec s (by simp [hs]))
      rw [anyOfLoop]
      rcases normal_iff.1 (hrec s (by simp)) with ⟨b, e⟩ | ⟨a, b, e⟩ <;> rw [e]
      · cases b with
        | false => exact normal_ok
        | true => exact ih
      · exact ih
  unfold body
  refine normal_seq (hn _ _ (by decide)) (normal_seq (hn _ _ (by decide)) (normal_seq (hn _ _ (by decide)) (normal_seq ?_
    (normal_seq ?_ (normal_seq ?_ (normal_seq ?_ ?_))))))
  · unfold vNumeric
    split
    · refine normal_seq ?_ (normal_seq (hn _ _ (by decide)) (hn _ _ (by decide)))
      unfold vMultipleOf
      rw [q kMultipleOf (by decide), q kDivisibleBy (by decide)]
      exact normal_ok
    · exact normal_ok
  · unfold vString
    split
    · exact normal_seq (normal_seq (hsz _ _ (by decide)) (hsz _ _ (by decide))) (normal_seq (hn _ _ (by decide)) (hn _ _ (by decide)))
    · exact normal_ok
  · unfold vArray
    split
    · exact normal_seq (normal_seq (hsz _ _ (by decide)) (hsz _ _ (by decide))) (normal_seq (hn _ _ (by decide)) (hn _ _ (by decide)))
    · exact normal_ok
  · unfold vObject
    split
    · refine normal_seq (normal_seq (hsz _ _ (by decide)) (hsz _ _ (by decide))) (normal_seq ?_ (normal_seq ?_ (hn _ _ (by decide))))
      · unfold vRequired
        refine normal_kw fun v hv => ?_
        split
        · refine normal_each fun k _ => ?_
          unfold requiredKey
          split
          · split; exact normal_ok; exact normal_err
          · exact normal_serr
        · exact normal_serr
      · unfold vProperties
        refine normal_seq (normal_go _) (normal_seq (normal_go _) (normal_each fun p _ => ?_))
        unfold vProperty
        have hpat : patternsOf E m = ([], true) := by unfold patternsOf; rw [q kPatternProperties (by decide)]
        rw [hpat]
        refine normal_seq ?_ (normal_seq normal_ok ?_)
        · split
          · next s hs =>
            unfold propertiesOf at hs
            split at hs
            · cases hs
            · next P hP => exact hprop P _ s _ hP hs
            · cases hs
          · exact normal_ok
        · split; exact hn _ _ (by decide); exact normal_ok
    · exact normal_ok
  · unfold vCombinations
    refine normal_seq (hn _ _ (by decide)) (normal_seq ?_ (normal_seq ?_ ?_))
    · unfold vAnyOf
      refine normal_kw fun v hv => ?_
      split
      · exact hany _ (hlist _ (.inl hv))
      · exact normal_serr
    · unfold vOneOf
      refine normal_kw fun v hv => ?_
      split
      · exact hone _ (hlist _ (.inr hv)) _
      · exact normal_serr
    · unfold vNot
      refine normal_kw fun v hv => ?_
      rcases normal_iff.1 (hnot v hv) with ⟨b, e⟩ | ⟨a, b, e⟩ <;> rw [e]
      · cases b
        · exact normal_err
        · exact normal_ok
      · exact normal_ok

/-! ## Inner schemas -/

theorem typeOk_object (E : Env) (dm : List (Bytes × Val)) : TypeOk E (.str wObject) (.map dm) :=
  ⟨[], .str wObject, [], rfl, nofun, rfl⟩

theorem typeOk_object_inv {E : Env} {d : Val} (h : TypeOk E (.str wObject) d) : d.ty = .map := by
  obtain ⟨pre, w, post, h1, _, h3⟩ := h
  have h1 : Val.list [.str wObject] = .list (pre ++ w :: post) := h1
  cases pre with
  | nil =>
    cases h1
    have : some (d.ty == .map) = some true := h3
    simpa using this
  | cons a pre =>
    have : [Val.str wObject] = a :: pre ++ w :: post := by injection h1
    have := congrArg List.length this
    simp at this

/-- The keywords of the schema of the result, groups included. -/
def outerKeys : List Bytes := [kType, kProperties, kRequired, kAllOf, kNot, kAnyOf, kOneOf]

/-- When a value satisfies an inner schema. -/
theorem valid_inner {E : Env} {sub : Val → Val → Vd} {m : List (Bytes × Val)} {d : Val} (q : KeysIn m outerKeys)
    (htype : ∀ t, has m kType t → TypeOk E t d)
    (hprops : ∀ v, has m kProperties v → ∃ P, v = .map P ∧ ∀ dm, d = .map dm → ∀ k x s, (k, x) ∈ dm → AMap.get P k = some s → sub s x = .accept)
    (hreq : ∀ r, has m kRequired r → ∃ ks : List Bytes, r = .list (ks.map .str) ∧ ∀ dm, d = .map dm → ∀ k ∈ ks, ∃ x, AMap.get dm k = some x)
    (hcomb : CombinationsOk sub m d) : Valid E sub m d where
  ref := fun r h => (q.no h (by decide)).elim
  type := htype
  enum := fun _ h => (q.no h (by decide)).elim
  number := fun _ =>
    { minimum := fun l h => (q.no h (by decide)).elim
      maximum := fun l h => (q.no h (by decide)).elim
      multipleOf := fun x h => by
        rcases h with h | ⟨_, h⟩
        · exact (q.no h (by decide)).elim
        · exact (q.no h (by decide)).elim }
  string := fun s _ =>
    { minLength := fun _ h => (q.no h (by decide)).elim
      maxLength := fun _ h => (q.no h (by decide)).elim
      pattern := fun _ h => (q.no h (by decide)).elim
      formatRegex := fun h => (q.no h (by decide)).elim
      formatOther := fun _ _ _ h => (q.no h (by decide)).elim }
  array := fun xs _ =>
    { minItems := fun _ h => (q.no h (by decide)).elim
      maxItems := fun _ h => (q.no h (by decide)).elim
      unique := fun _ h => (q.no h (by decide)).elim
      itemsEach := fun s h _ => (q.no h (by decide)).elim
      itemsList := fun ss h => (q.no h (by decide)).elim }
  object := fun dm hd =>
    { minProperties := fun _ h => (q.no h (by decide)).elim
      maxProperties := fun _ h => (q.no h (by decide)).elim
      required := fun r h => by
        obtain ⟨ks, rfl, h1⟩ := hreq r h
        refine ⟨_, rfl, fun k hk => ?_⟩
        obtain ⟨t, ht, rfl⟩ := List.mem_map.1 hk
        obtain ⟨x, hx⟩ := h1 dm hd t ht
        exact ⟨t, x, rfl, hx⟩
      propertiesForm := fun v h => by obtain ⟨P, rfl, _⟩ := hprops v h; rfl
      patternsForm := fun _ h => (q.no h (by decide)).elim
      properties := fun k x hkx ps s h hs => by
        obtain ⟨P, e, h1⟩ := hprops _ h
        cases e
        exact h1 dm hd k x s hkx hs
      patterns := fun _ _ _ _ _ _ h => (q.no h (by decide)).elim
      additional := fun _ _ _ _ _ => .inl (q _ (by decide))
      dependencies := fun _ h => (q.no h (by decide)).elim }
  combinations := hcomb

/-! ## Members of groups -/

theorem get_pair (k k' : Bytes) (v : Val) : AMap.get [(k, v)] k' = if k' = k then some v else none := by
  have : AMap.get (AMap.set [] k v) k' = _ := get_set [] k k' v
  exact this

theorem member_keys (k : Bytes) (s : Val) : KeysIn [(kProperties, .map [(k, s)]), (kRequired, .list [.str k])] [kProperties, kRequired] := by
  intro k' hk'
  have h1 : k' ≠ kProperties := by rintro rfl; exact hk' (by decide)
  have h2 : k' ≠ kRequired := by rintro rfl; exact hk' (by decide)
  have : AMap.get (AMap.set (AMap.set [] kRequired (Val.list [.str k])) kProperties (Val.map [(k, s)])) k' = none := by
    rw [get_set, get_set, if_neg h1, if_neg h2]; rfl
  exact this

theorem member_normal {E : Env} : ∀ (ks : List Bytes) (d : Val) (fuel depth : Nat), ks.length + 1 ≤ fuel →
    Normal (validate E fuel depth (memberSchema (kp ks)) d)
  | ks, d, 0, _, hf => by omega
  | [], d, fuel + 1, depth, hf => by
    show Normal (validate E (fuel + 1) depth (.map []) d)
    rw [validate]
    split
    · exact normal_iff.2 (.inr ⟨_, _, rfl⟩)
    · exact normal_body (KeysIn.nil _) d nofun nofun nofun
  | k :: ks, d, fuel + 1, depth, hf => by
    simp only [List.length_cons] at hf
    show Normal (validate E (fuel + 1) depth (.map [(kProperties, .map [(k, memberSchema (kp ks))]), (kRequired, .list [.str k])]) d)
    have hk := member_keys k (memberSchema (kp ks))
    rw [validate]
    split
    · exact normal_iff.2 (.inr ⟨_, _, rfl⟩)
    · refine normal_body (hk.mono (by decide)) d ?_ ?_ ?_
      · intro P k' s x h1 h2
        have g1 : has [(kProperties, .map [(k, memberSchema (kp ks))]), (kRequired, .list [.str k])] kProperties (.map [(k, memberSchema (kp ks))]) := rfl
        unfold has at h1 g1
        rw [g1] at h1
        cases h1
        rw [get_pair] at h2
        split at h2
        · cases h2; exact member_normal ks x fuel _ (by omega)
        · cases h2
      · intro s h; exact (hk.no h (by decide)).elim
      · rintro ss (h | h)
        · exact (hk.no h (by decide)).elim
        · exact (hk.no h (by decide)).elim

/-- Maps down to the path. -/
def MapsTo (d : Val) (ks : List Bytes) : Prop :=
  ∀ q d', q <+: ks → q ≠ ks → getPath? d (kp q) = some d' → ∃ m, d' = .map m ∧ AMap.Sorted m

/-- A value is at the path, or the schema of the member is violated. -/
theorem member_verdict {E : Env} : ∀ (ks : List Bytes) (d : Val) (fuel depth : Nat), MapsTo d ks → ks.length + 1 ≤ fuel →
    depth + ks.length + 1 ≤ 100 →
    verdict (validate E fuel depth (memberSchema (kp ks)) d) = if (getPath? d (kp ks)).isSome then .accept else .reject
  | [], d, fuel, depth, _, hf, hd => by
    obtain ⟨fuel, rfl⟩ : ∃ n, fuel = n + 1 := ⟨fuel - 1, by omega⟩
    show verdict (validate E (fuel + 1) depth (.map []) d) = .accept
    rw [verdict_accept, validate, if_neg (by unfold recursionLimit; simp at hd; omega), acc_body]
    exact valid_inner (KeysIn.nil _) nofun nofun nofun ⟨nofun, nofun, nofun, nofun⟩
  | k :: ks, d, fuel, depth, hm, hf, hd => by
    obtain ⟨fuel, rfl⟩ : ∃ n, fuel = n + 1 := ⟨fuel - 1, by omega⟩
    simp only [List.length_cons] at hf hd
    obtain ⟨dm, rfl, hsort⟩ := hm [] d List.nil_prefix (by simp) rfl
    have hk := member_keys k (memberSchema (kp ks))
    obtain ⟨mm, hmm⟩ : ∃ mm, mm = [(kProperties, Val.map [(k, memberSchema (kp ks))]), (kRequired, Val.list [.str k])] := ⟨_, rfl⟩
    have g1 : AMap.get mm kProperties = some (.map [(k, memberSchema (kp ks))]) := by rw [hmm]; rfl
    have g2 : AMap.get mm kRequired = some (.list [.str k]) := by rw [hmm]; rfl
    have hchild : ∀ x, AMap.get dm k = some x → verdict (validate E fuel (depth + 1) (memberSchema (kp ks)) x) =
        if (getPath? x (kp ks)).isSome then .accept else .reject := by
      intro x hx
      refine member_verdict ks x fuel (depth + 1) ?_ (by omega) (by omega)
      intro q d' hq hne hq'
      refine hm (k :: q) d' (by simpa using hq) (by simpa using hne) ?_
      rw [getPath?_key, hx]; exact hq'
    have hnorm := member_normal (E := E) (k :: ks) (.map dm) (fuel + 1) depth (by simp; omega)
    have hval : verdict (validate E (fuel + 1) depth (memberSchema (kp (k :: ks))) (.map dm)) = .accept ↔
        (getPath? (.map dm) (kp (k :: ks))).isSome = true := by
      have e : memberSchema (kp (k :: ks)) = .map mm := by rw [hmm]; rfl
      rw [e, verdict_accept, validate, if_neg (by unfold recursionLimit; omega), acc_body, getPath?_key]
      rw [← hmm] at hk
      constructor
      · intro hv
        obtain ⟨ks', h1, h2⟩ := (hv.object dm rfl).required _ g2
        cases h1
        obtain ⟨t, x, h3, h4⟩ := h2 (.str k) (by simp)
        cases h3
        have h5 := (hv.object dm rfl).properties k x (AMap.get_mem h4) _ (memberSchema (kp ks)) g1 (by rw [get_pair, if_pos rfl])
        have h6 := hchild x h4
        unfold sub at h5
        rw [h5] at h6
        rw [h4]
        show (getPath? x (kp ks)).isSome = true
        split at h6
        · next h => exact h
        · cases h6
      · intro hs
        cases hg : AMap.get dm k with
        | none => rw [hg] at hs; cases hs
        | some x =>
          rw [hg] at hs
          have hs : (getPath? x (kp ks)).isSome = true := hs
          refine valid_inner (hk.mono (by decide)) ?_ ?_ ?_ ?_
          · intro t h; exact (hk.no h (by decide)).elim
          · intro v h
            unfold has at h
            rw [g1] at h; cases h
            refine ⟨_, rfl, ?_⟩
            intro dm' e k' x' s hmem h2
            cases e
            rw [get_pair] at h2
            split at h2
            · next e =>
              cases h2
              subst e
              have := AMap.get_of_mem hsort hmem
              rw [hg] at this
              cases this
              have h6 := hchild x hg
              rw [if_pos hs] at h6
              exact h6
            · cases h2
          · intro r h
            unfold has at h
            rw [g2] at h; cases h
            refine ⟨[k], rfl, ?_⟩
            intro dm' e k' hk'
            cases e
            rw [List.mem_singleton.1 hk']
            exact ⟨x, hg⟩
          · exact ⟨fun v h => (hk.no h (by decide)).elim, fun v h => (hk.no h (by decide)).elim, fun v h => (hk.no h (by decide)).elim,
              fun v h => (hk.no h (by decide)).elim⟩
    split
    · next h => exact hval.2 h
    · next h =>
      cases hv : verdict (validate E (fuel + 1) depth (memberSchema (kp (k :: ks))) (.map dm)) with
      | accept => exact absurd (hval.1 hv) h
      | reject => rfl
      | abnormal => exact absurd hv hnorm

/-! ## Combinations -/

theorem single_keys (k : Bytes) (v : Val) : KeysIn [(k, v)] [k] := by
  intro k' hk'
  rw [get_pair, if_neg (by simpa using hk')]

theorem verdict_of {r : M} (hn : Normal r) {p : Bool} (h : verdict r = .accept ↔ p = true) : verdict r = if p then .accept else .reject := by
  cases hv : verdict r with
  | accept => rw [if_pos (h.1 hv)]
  | reject =>
    rw [if_neg]
    intro e; rw [h.2 e] at hv; cases hv
  | abnormal => exact absurd hv hn

theorem normal_of {r : M} {p : Bool} (h : verdict r = if p then .accept else .reject) : Normal r := by
  unfold Normal; rw [h]; split <;> nofun

/-- `not`. -/
theorem not_verdict {E : Env} {fuel depth : Nat} {s d : Val} {p : Bool} (hd : depth + 1 ≤ 100)
    (h : verdict (validate E fuel (depth + 1) s d) = if p then .accept else .reject) :
    verdict (validate E (fuel + 1) depth (.map [(kNot, s)]) d) = if !p then .accept else .reject := by
  have hk := single_keys kNot s
  have g : AMap.get [(kNot, s)] kNot = some s := rfl
  rw [validate, if_neg (by unfold recursionLimit; omega)]
  refine verdict_of (normal_body (hk.mono (by decide)) d ?_ ?_ ?_) ?_
  · intro _ _ _ _ h1; exact (hk.no h1 (by decide)).elim
  · intro s' h1
    unfold has at h1; rw [g] at h1; cases h1
    exact normal_of h
  · rintro ss (h1 | h1)
    · exact (hk.no h1 (by decide)).elim
    · exact (hk.no h1 (by decide)).elim
  · rw [verdict_accept, acc_body]
    constructor
    · intro hv
      have := hv.combinations.not s g
      unfold sub at this
      rw [h] at this
      cases p with
      | true => cases this
      | false => rfl
    · intro hp
      refine valid_inner (hk.mono (by decide)) ?_ ?_ ?_ ⟨?_, ?_, ?_, ?_⟩
      · intro t h; exact (hk.no h (by decide)).elim
      · intro t h; exact (hk.no h (by decide)).elim
      · intro t h; exact (hk.no h (by decide)).elim
      · intro t h; exact (hk.no h (by decide)).elim
      · intro t h; exact (hk.no h (by decide)).elim
      · intro t h; exact (hk.no h (by decide)).elim
      · intro t h1
        unfold has at h1; rw [g] at h1; cases h1
        unfold sub
        rw [h]
        cases p with
        | true => cases hp
        | false => rfl

/-- `anyOf`. -/
theorem anyOf_verdict {E : Env} {fuel depth : Nat} {ss : List Val} {d : Val} {p : Val → Bool} (hd : depth + 1 ≤ 100)
    (h : ∀ s ∈ ss, verdict (validate E fuel (depth + 1) s d) = if p s then .accept else .reject) :
    verdict (validate E (fuel + 1) depth (.map [(kAnyOf, .list ss)]) d) = if ss.any p then .accept else .reject := by
  have hk := single_keys kAnyOf (.list ss)
  have g : AMap.get [(kAnyOf, Val.list ss)] kAnyOf = some (.list ss) := rfl
  rw [validate, if_neg (by unfold recursionLimit; omega)]
  refine verdict_of (normal_body (hk.mono (by decide)) d ?_ ?_ ?_) ?_
  · intro _ _ _ _ h1; exact (hk.no h1 (by decide)).elim
  · intro s' h1; exact (hk.no h1 (by decide)).elim
  · rintro ss' (h1 | h1)
    · unfold has at h1; rw [g] at h1; cases h1
      intro s hs; exact normal_of (h s hs)
    · exact (hk.no h1 (by decide)).elim
  · rw [verdict_accept, acc_body]
    constructor
    · intro hv
      obtain ⟨pre, s, post, h1, h2, h3⟩ := hv.combinations.anyOf _ g
      cases h1
      unfold sub at h3
      rw [h s (by simp)] at h3
      rw [List.any_eq_true]
      refine ⟨s, by simp, ?_⟩
      cases hp : p s with
      | true => rfl
      | false => rw [hp] at h3; cases h3
    · intro hp
      refine valid_inner (hk.mono (by decide)) ?_ ?_ ?_ ⟨?_, ?_, ?_, ?_⟩
      · intro t h; exact (hk.no h (by decide)).elim
      · intro t h; exact (hk.no h (by decide)).elim
      · intro t h; exact (hk.no h (by decide)).elim
      · intro t h; exact (hk.no h (by decide)).elim
      · intro t h1
        unfold has at h1; rw [g] at h1; cases h1
        clear g hk
        have : ∃ pre s post, ss = pre ++ s :: post ∧ (∀ x ∈ pre, sub (validate E fuel (depth + 1)) x d = .reject) ∧
            sub (validate E fuel (depth + 1)) s d = .accept := by
          induction ss with
          | nil => cases hp
          | cons s ss ih =>
            have hs := h s (by simp)
            cases hps : p s with
            | true => rw [hps] at hs; exact ⟨[], s, ss, rfl, nofun, hs⟩
            | false =>
              rw [List.any_cons, hps, Bool.false_or] at hp
              obtain ⟨pre, t, post, h1, h2, h3⟩ := ih (fun s hs => h s (by simp [hs])) hp
              refine ⟨s :: pre, t, post, by rw [h1]; rfl, ?_, h3⟩
              intro x hx
              rcases List.mem_cons.1 hx with rfl | hx
              · rw [hps] at hs; exact hs
              · exact h2 x hx
        obtain ⟨pre, s, post, h1, h2⟩ := this
        exact ⟨pre, s, post, by rw [h1], h2⟩
      · intro t h; exact (hk.no h (by decide)).elim
      · intro t h; exact (hk.no h (by decide)).elim

theorem filter_one {α : Type} {p : α → Bool} {xs : List α} : (xs.filter p).length = 1 ↔
    ∃ pre x post, xs = pre ++ x :: post ∧ (∀ y ∈ pre ++ post, p y = false) ∧ p x = true := by
  constructor
  · intro h
    induction xs with
    | nil => cases h
    | cons x xs ih =>
      cases hp : p x with
      | true =>
        rw [List.filter_cons_of_pos hp, List.length_cons] at h
        have h0 : xs.filter p = [] := List.length_eq_zero_iff.1 (by omega)
        refine ⟨[], x, xs, rfl, fun y hy => ?_, hp⟩
        have := List.filter_eq_nil_iff.1 h0 y hy
        simpa using this
      | false =>
        rw [List.filter_cons_of_neg (by simp [hp])] at h
        obtain ⟨pre, z, post, h1, h2, h3⟩ := ih h
        refine ⟨x :: pre, z, post, by rw [h1]; rfl, ?_, h3⟩
        intro y hy
        rcases List.mem_cons.1 hy with rfl | hy
        · exact hp
        · exact h2 y hy
  · rintro ⟨pre, x, post, rfl, h2, h3⟩
    have h4 : pre.filter p = [] := List.filter_eq_nil_iff.2 fun y hy => by simp [h2 y (by simp [hy])]
    have h5 : post.filter p = [] := List.filter_eq_nil_iff.2 fun y hy => by simp [h2 y (by simp [hy])]
    rw [List.filter_append, List.filter_cons_of_pos h3, h4, h5]
    rfl

/-- `oneOf`. -/
theorem oneOf_acc {E : Env} {fuel depth : Nat} {ss : List Val} {d : Val} {p : Val → Bool} (hd : depth + 1 ≤ 100)
    (h : ∀ s ∈ ss, verdict (validate E fuel (depth + 1) s d) = if p s then .accept else .reject) :
    verdict (validate E (fuel + 1) depth (.map [(kOneOf, .list ss)]) d) = .accept ↔ (ss.filter p).length = 1 := by
  have hk := single_keys kOneOf (.list ss)
  have g : AMap.get [(kOneOf, Val.list ss)] kOneOf = some (.list ss) := rfl
  have hr : ∀ s ∈ ss, sub (validate E fuel (depth + 1)) s d = .reject ↔ p s = false := by
    intro s hs
    unfold sub
    rw [h s hs]
    cases p s <;> simp
  have ha : ∀ s ∈ ss, sub (validate E fuel (depth + 1)) s d = .accept ↔ p s = true := by
    intro s hs
    unfold sub
    rw [h s hs]
    cases p s <;> simp
  rw [validate, if_neg (by unfold recursionLimit; omega), verdict_accept, acc_body, filter_one]
  constructor
  · intro hv
    obtain ⟨pre, s, post, h1, h2, h3⟩ := hv.combinations.oneOf _ g
    cases h1
    refine ⟨pre, s, post, rfl, fun y hy => (hr y ?_).1 (h2 y hy), (ha s (by simp)).1 h3⟩
    rcases List.mem_append.1 hy with hy | hy <;> simp [hy]
  · rintro ⟨pre, s, post, rfl, h2, h3⟩
    refine valid_inner (hk.mono (by decide)) ?_ ?_ ?_ ⟨?_, ?_, ?_, ?_⟩
    · intro t h; exact (hk.no h (by decide)).elim
    · intro t h; exact (hk.no h (by decide)).elim
    · intro t h; exact (hk.no h (by decide)).elim
    · intro t h; exact (hk.no h (by decide)).elim
    · intro t h; exact (hk.no h (by decide)).elim
    · intro t h1
      unfold has at h1; rw [g] at h1; cases h1
      refine ⟨pre, s, post, rfl, fun y hy => (hr y ?_).2 (h2 y hy), (ha s (by simp)).2 h3⟩
      rcases List.mem_append.1 hy with hy | hy <;> simp [hy]
    · intro t h; exact (hk.no h (by decide)).elim

/-- The schema of a group: at most one member has a value, and one if the group is required. -/
theorem group_acc {E : Env} {req : Bool} {ps : List (List Bytes)} {d : Val} (hm : ∀ p ∈ ps, MapsTo d p) (hl : ∀ p ∈ ps, p.length ≤ 95) :
    verdict (validate E 100 1 (.map [(kOneOf, .list (groupCases req (ps.map kp)))]) d) = .accept ↔
      (ps.filter fun p => (getPath? d (kp p)).isSome).length ≤ 1 ∧
        (req = true → (ps.filter fun p => (getPath? d (kp p)).isSome).length = 1) := by
  obtain ⟨c, hc⟩ : ∃ c : List Bytes → Bool, c = fun p => (getPath? d (kp p)).isSome := ⟨_, rfl⟩
  rw [← hc]
  obtain ⟨cs, hcs⟩ : ∃ cs, cs = (ps.map kp).map memberSchema := ⟨_, rfl⟩
  -- the verdict of each member's schema decides what is there
  obtain ⟨P, hP⟩ : ∃ P : Val → Bool, P = fun s => verdict (validate E 99 2 s d) == .accept := ⟨_, rfl⟩
  have hmem : ∀ fuel depth, 97 ≤ fuel → depth ≤ 4 → ∀ p ∈ ps, verdict (validate E fuel depth (memberSchema (kp p)) d) = if c p then .accept else .reject := by
    intro fuel depth h1 h2 p hp
    have := hl p hp
    rw [hc]
    exact member_verdict p d fuel depth (hm p hp) (by omega) (by omega)
  have hPc : ∀ p ∈ ps, P (memberSchema (kp p)) = c p := by
    intro p hp
    rw [hP]
    dsimp only
    rw [hmem 99 2 (by omega) (by omega) p hp]
    cases c p <;> rfl
  have hcv : ∀ fuel depth, 97 ≤ fuel → depth ≤ 4 → ∀ s ∈ cs, verdict (validate E fuel depth s d) = if P s then .accept else .reject := by
    intro fuel depth h1 h2 s hs
    rw [hcs, List.map_map] at hs
    obtain ⟨p, hp, rfl⟩ := List.mem_map.1 hs
    rw [Function.comp_apply, hPc p hp]
    exact hmem fuel depth h1 h2 p hp
  have hfil : ∀ qs : List (List Bytes), (∀ p ∈ qs, p ∈ ps) → (((qs.map kp).map memberSchema).filter P).length = (qs.filter c).length := by
    intro qs
    induction qs with
    | nil => intro _; rfl
    | cons p qs ih =>
      intro hq
      have ih := ih (fun p hp => hq p (by simp [hp]))
      rw [List.map_cons, List.map_cons, List.filter_cons, List.filter_cons, hPc p (hq p (by simp))]
      split
      · rw [List.length_cons, List.length_cons, ih]
      · exact ih
  have hfil := hfil ps (fun _ h => h)
  rw [← hcs] at hfil
  -- what none of them having a value means
  have hN : verdict (validate E 99 2 (.map [(kNot, .map [(kAnyOf, .list cs)])]) d) = if !cs.any P then .accept else .reject :=
    not_verdict (fuel := 98) (by omega) (anyOf_verdict (fuel := 97) (by omega) (hcv 97 4 (by omega) (by omega)))
  have hany : cs.any P = decide (0 < (ps.filter c).length) := by
    rw [← hfil]
    cases h : cs.any P with
    | true =>
      obtain ⟨x, h1, h2⟩ := List.any_eq_true.1 h
      have : 0 < (cs.filter P).length := List.length_pos_of_mem (List.mem_filter.2 ⟨h1, h2⟩)
      simp [this]
    | false =>
      have : cs.filter P = [] := List.filter_eq_nil_iff.2 fun x hx hpx => by
        have := List.any_eq_true.2 ⟨x, hx, hpx⟩
        rw [h] at this; cases this
      rw [this]; rfl
  have hall : ∀ s ∈ groupCases req (ps.map kp), verdict (validate E 99 2 s d) = if P s then .accept else .reject := by
    intro s hs
    unfold groupCases at hs
    rw [← hcs] at hs
    dsimp only at hs
    split at hs
    · exact hcv 99 2 (by omega) (by omega) s hs
    · rcases List.mem_append.1 hs with hs | hs
      · exact hcv 99 2 (by omega) (by omega) s hs
      · rw [List.mem_singleton.1 hs]
        refine verdict_of (normal_of hN) ?_
        rw [hP]
        simp
  rw [oneOf_acc (fuel := 99) (by omega) hall]
  unfold groupCases
  rw [← hcs]
  dsimp only
  cases req with
  | true =>
    rw [if_pos rfl, hfil]
    constructor
    · intro h; exact ⟨by omega, fun _ => h⟩
    · rintro ⟨_, h⟩; exact h rfl
  | false =>
    rw [if_neg (by decide), List.filter_append, List.length_append, hfil]
    have hPN : P (.map [(kNot, .map [(kAnyOf, .list cs)])]) = decide ((ps.filter c).length = 0) := by
      rw [hP]
      dsimp only
      rw [hN, hany]
      by_cases h : (ps.filter c).length = 0
      · simp [h]
      · have : 0 < (ps.filter c).length := by omega
        simp [h, this]
    rw [List.filter_cons, hPN]
    by_cases h : (ps.filter c).length = 0
    · simp [h]
    · simp only [h, decide_false, Bool.false_eq_true, if_false, List.filter_nil, List.length_nil, Nat.add_zero, false_implies, and_true]
      omega

end Verif.Args
