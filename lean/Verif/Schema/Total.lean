import Verif.Schema.AcceptObject
/-!
# Validation always ends, and does not depend on how deeply it is nested
-/

namespace Verif.Schema

/-! ## Properties of outcomes kept by every part -/

/-- A set of outcomes that the parts of the validator do not leave. -/
structure Closed (P : M → Prop) : Prop where
  go : ∀ b, P (some (.go b))
  err : P err
  exn : ∀ e, P (some (.exn e))
  ub : P (some .ub)
  seq : ∀ {a b}, P a → P b → P (seq a b)

section
variable {P : M → Prop} (C : Closed P)
include C

theorem nn_ok : P ok := C.go false
theorem nn_serr : P serr := C.go true

theorem nn_each {α : Type} {f : α → M} {xs : List α} (h : ∀ x, P (f x)) : P (each f xs) := by
  induction xs with
  | nil => exact nn_ok C
  | cons x xs ih => exact C.seq (h x) ih

theorem nn_withOut {α : Type} {o : Out α} {f : α → M} (h : ∀ a, P (f a)) : P (withOut o f) := by
  cases o with
  | ok a => exact h a
  | throw e => exact C.exn e
  | ub => exact C.ub

theorem nn_kw {m : List (Bytes × Val)} {k : Bytes} {f : Val → M} (h : ∀ v, P (f v)) : P (kw m k f) := by
  unfold kw; split
  · exact nn_ok C
  · exact h _

omit C in
theorem nn_ite {c : Prop} [Decidable c] {a b : M} (ha : P a) (hb : P b) :
    P (if c then a else b) := by split <;> assumption

variable {rec : Val → Val → M} (h : ∀ s d, P (rec s d))
include h

theorem nn_oneOf (d : Val) (ss : List Val) : ∀ n, P (oneOfLoop rec d n ss) := by
  induction ss with
  | nil => intro n; simp only [oneOfLoop]; exact nn_ite C.err (nn_ok C)
  | cons s ss ih =>
    intro n; simp only [oneOfLoop]
    split
    · exact nn_ite C.err (ih _)
    · exact ih _
    · exact ih _
    · exact h s d

theorem nn_anyOf (d : Val) (ss : List Val) : P (anyOfLoop rec d ss) := by
  induction ss with
  | nil => exact C.err
  | cons s ss ih =>
    simp only [anyOfLoop]
    split
    · exact (nn_ok C)
    · exact ih
    · exact ih
    · exact h s d

theorem nn_extra (m : List (Bytes × Val)) (k : Bytes) (x : Val) : P (extra rec m k x) := by
  refine nn_kw C fun v => ?_
  split
  · exact (nn_ok C)
  · exact C.err
  · exact h _ _

theorem nn_items (m : List (Bytes × Val)) (ss xs : List Val) : P (itemsLoop rec m ss xs) := by
  induction xs generalizing ss with
  | nil => cases ss <;> exact nn_ok C
  | cons x xs ih =>
    cases ss with
    | nil => exact C.seq (nn_extra C h _ _ _) (ih [])
    | cons s ss => exact C.seq (h _ _) (ih ss)

theorem nn_body (E : Env) (m : List (Bytes × Val)) (d : Val) : P (body E rec m d) := by
  have hsl : ∀ k bad, P (sizeLimit m k bad) := fun k bad =>
    nn_kw C fun l => nn_ite (nn_withOut C fun u => nn_ite C.err (nn_ok C)) (nn_serr C)
  have hty : ∀ ws, P (typeLoop E d ws) := by
    intro ws
    induction ws with
    | nil => exact C.err
    | cons w ws ih =>
      simp only [typeLoop]; split
      · exact (nn_ok C)
      · exact ih
      · exact nn_withOut C fun _ => C.seq (nn_serr C) ih
  have hre : ∀ re s, P (matchRe E re s) := by
    intro re s; unfold matchRe; split
    · exact (nn_serr C)
    · exact nn_ite (nn_ok C) C.err
  have hun : ∀ xs, P (uniqueLoop E xs) := by
    intro xs
    induction xs with
    | nil => exact nn_ok C
    | cons x xs ih => exact C.seq (nn_each C fun y => nn_ite C.err (nn_ok C)) ih
  unfold body
  refine C.seq ?_ (C.seq ?_ (C.seq ?_ (C.seq ?_ (C.seq ?_ (C.seq ?_ (C.seq ?_ ?_))))))
  · refine nn_kw C fun r => ?_
    split
    · exact nn_withOut C fun t => h t d
    · exact (nn_ok C)
  · refine nn_kw C fun t => ?_
    split <;> exact hty _
  · refine nn_kw C fun e => ?_
    split
    · exact nn_ite (nn_ok C) C.err
    · exact (nn_serr C)
  · refine nn_ite (C.seq ?_ (C.seq ?_ ?_)) (nn_ok C)
    · unfold vMultipleOf; split
      · exact (nn_ok C)
      · refine nn_ite (nn_serr C) (nn_ite ?_ (nn_withOut C fun _ => nn_ite (nn_ok C) C.err))
        split
        · exact nn_ite C.err (nn_ok C)
        · exact (nn_ok C)
    all_goals
      exact nn_kw C fun l => nn_ite (nn_ite C.err (nn_kw C fun x => nn_withOut C fun b => nn_ite C.err (nn_ok C))) (nn_serr C)
  · unfold vString; split
    · refine C.seq (C.seq (hsl _ _) (hsl _ _)) (C.seq (nn_kw C fun p => ?_) (nn_kw C fun f => ?_))
      · split
        · exact hre _ _
        · exact (nn_serr C)
      · split
        · exact nn_ite (nn_ite (nn_ok C) C.err) (nn_ite (nn_ok C) (hre _ _))
        · exact (nn_ok C)
    · exact (nn_ok C)
  · unfold vArray; split
    · refine C.seq (C.seq (hsl _ _) (hsl _ _)) (C.seq (nn_kw C fun u => ?_) (nn_kw C fun i => ?_))
      · split
        · exact hun _
        · exact (nn_ok C)
        · exact (nn_serr C)
      · split
        · exact nn_items C h _ _ _
        · exact nn_each C fun x => h _ x
    · exact (nn_ok C)
  · unfold vObject; split
    · refine C.seq (C.seq (hsl _ _) (hsl _ _)) (C.seq (nn_kw C fun r => ?_) (C.seq ?_ (nn_kw C fun deps => ?_)))
      · split
        · refine nn_each C fun k => ?_
          unfold requiredKey; split
          · exact nn_ite (nn_ok C) C.err
          · exact nn_serr C
        · exact (nn_serr C)
      · unfold vProperties
        refine C.seq (C.go _) (C.seq (C.go _) (nn_each C fun p => ?_))
        refine C.seq ?_ (C.seq (nn_each C fun q => h _ _) (nn_ite (nn_extra C h _ _ _) (nn_ok C)))
        split
        · exact h _ _
        · exact (nn_ok C)
      · split
        · refine nn_each C fun p => nn_ite ?_ (nn_ok C)
          split
          · exact nn_ite (nn_ok C) C.err
          · exact nn_each C fun k => nn_withOut C fun t => nn_ite (nn_ok C) C.err
          · exact h _ _
          · exact (nn_serr C)
        · exact (nn_serr C)
    · exact (nn_ok C)
  · refine C.seq (nn_kw C fun v => ?_) (C.seq (nn_kw C fun v => ?_) (C.seq (nn_kw C fun v => ?_) (nn_kw C fun v => ?_)))
    · split
      · exact nn_each C fun s => h s d
      · exact (nn_serr C)
    · split
      · exact nn_anyOf C h d _
      · exact (nn_serr C)
    · split
      · exact nn_oneOf C h d _ 0
      · exact (nn_serr C)
    · split
      · exact (nn_ok C)
      · exact (nn_ok C)
      · exact C.err
      · exact h v d

end

theorem closed_some : Closed (· ≠ none) := by
  refine ⟨by simp, by simp [err], by simp, by simp, ?_⟩
  intro a b ha hb
  unfold seq; split
  · split <;> simp_all
  · exact ha

theorem closed_reported : Closed (· ≠ some (.stop false false)) := by
  refine ⟨by simp, by simp [err], by simp, by simp, ?_⟩
  intro a b ha hb
  unfold seq; split
  · split <;> simp_all
  · exact ha

/-- At depth `depth` no more than `101 - depth` nested calls are ever open. -/
theorem validate_finishes (E : Env) (fuel depth : Nat) (hf : recursionLimit + 1 ≤ fuel + depth) (s d : Val)
    (hd : depth ≤ recursionLimit) : validate E fuel depth s d ≠ none := by
  induction fuel generalizing depth s d with
  | zero => omega
  | succ fuel ih =>
    simp only [validate]
    by_cases hlt : depth + 1 > recursionLimit
    · rw [if_pos hlt]; simp
    · rw [if_neg hlt]
      split
      · exact nn_body closed_some (fun s d => ih (depth + 1) (by omega) s d (by omega)) E _ d
      · exact nn_ok closed_some

/-- Stopping early always leaves a record of an error. -/
theorem validate_reported (E : Env) (fuel depth : Nat) (s d : Val) :
    validate E fuel depth s d ≠ some (.stop false false) := by
  induction fuel generalizing depth s d with
  | zero => simp [validate]
  | succ fuel ih =>
    simp only [validate]
    split
    · simp
    · split
      · exact nn_body closed_reported (fun s d => ih (depth + 1) s d) E _ d
      · exact nn_ok closed_reported

/-! ## Only the validation steps matter -/

theorem each_congr {α : Type} {f g : α → M} {xs : List α} (h : ∀ x ∈ xs, f x = g x) : each f xs = each g xs := by
  induction xs with
  | nil => rfl
  | cons x xs ih =>
    simp only [each]
    rw [h x (by simp), ih fun y hy => h y (List.mem_cons_of_mem _ hy)]

theorem kw_congr {m : List (Bytes × Val)} {k : Bytes} {f g : Val → M} (h : ∀ v, has m k v → f v = g v) :
    kw m k f = kw m k g := by
  unfold kw; split
  · rfl
  · exact h _ ‹_›

theorem withOut_congr {α : Type} {o : Out α} {f g : α → M} (h : ∀ a, o = .ok a → f a = g a) :
    withOut o f = withOut o g := by
  cases o with
  | ok a => exact h a rfl
  | _ => rfl

theorem oneOf_congr {r1 r2 : Val → Val → M} {d : Val} {ss : List Val} (h : ∀ s ∈ ss, r1 s d = r2 s d) :
    ∀ n, oneOfLoop r1 d n ss = oneOfLoop r2 d n ss := by
  induction ss with
  | nil => intro n; rfl
  | cons s ss ih =>
    intro n
    have ih := ih fun t ht => h t (List.mem_cons_of_mem _ ht)
    simp only [oneOfLoop, h s (by simp), ih]

theorem anyOf_congr {r1 r2 : Val → Val → M} {d : Val} {ss : List Val} (h : ∀ s ∈ ss, r1 s d = r2 s d) :
    anyOfLoop r1 d ss = anyOfLoop r2 d ss := by
  induction ss with
  | nil => rfl
  | cons s ss ih =>
    have ih := ih fun t ht => h t (List.mem_cons_of_mem _ ht)
    simp only [anyOfLoop, h s (by simp), ih]

theorem extra_congr {r1 r2 : Val → Val → M} {m : List (Bytes × Val)} {k : Bytes} {x : Val}
    (h : ∀ s, has m k s → r1 s x = r2 s x) : extra r1 m k x = extra r2 m k x := by
  refine kw_congr fun v hv => ?_
  split
  · rfl
  · rfl
  · exact h _ hv

theorem items_congr {r1 r2 : Val → Val → M} {m : List (Bytes × Val)} {ss xs : List Val}
    (h1 : ∀ (i : Nat) s x, ss[i]? = some s → xs[i]? = some x → r1 s x = r2 s x)
    (h2 : ∀ s x, has m kAdditionalItems s → x ∈ xs → r1 s x = r2 s x) :
    itemsLoop r1 m ss xs = itemsLoop r2 m ss xs := by
  induction xs generalizing ss with
  | nil => cases ss <;> rfl
  | cons x xs ih =>
    cases ss with
    | nil =>
      simp only [itemsLoop]
      rw [extra_congr fun s hs => h2 s x hs (by simp),
        ih (by simp) fun s y hs hy => h2 s y hs (List.mem_cons_of_mem _ hy)]
    | cons s ss =>
      simp only [itemsLoop]
      rw [h1 0 s x rfl rfl, ih (fun i s x hs hx => h1 (i+1) s x (by simpa using hs) (by simpa using hx))
        fun s y hs hy => h2 s y hs (List.mem_cons_of_mem _ hy)]

theorem body_congr (E : Env) {r1 r2 : Val → Val → M} {m : List (Bytes × Val)} {d : Val}
    (h : ∀ s x, Step E (.map m, d) (s, x) → r1 s x = r2 s x) : body E r1 m d = body E r2 m d := by
  have h1 : vRef E r1 m d = vRef E r2 m d := by
    refine kw_congr fun r hr => ?_
    split
    · exact withOut_congr fun t ht => h t d (.ref hr ht)
    · rfl
  have h2 : vArray E r1 m d = vArray E r2 m d := by
    unfold vArray; split
    · rename_i xs
      have : vItems r1 m xs = vItems r2 m xs := by
        refine kw_congr fun i hi => ?_
        split
        · exact items_congr (fun i s x hs hx => h s x (.itemsAt hi hs hx)) fun s x hs hx => h s x (.additionalItems hs hx)
        · exact each_congr fun x hx => h _ x (.items hi hx)
      rw [this]
    · rfl
  have h3 : vObject E r1 m d = vObject E r2 m d := by
    unfold vObject; split
    · rename_i dm
      have a1 : vProperties E r1 m dm = vProperties E r2 m dm := by
        unfold vProperties
        refine congrArg _ (congrArg _ (each_congr fun p hp => ?_))
        obtain ⟨k, x⟩ := p
        simp only [vProperty]
        congr 1
        · unfold propertiesOf
          cases hps : AMap.get m kProperties with
          | none => rfl
          | some v =>
            cases v with
            | map ps =>
              simp only
              cases hs : AMap.get ps k with
              | none => rfl
              | some s => exact h s x (.properties hps hs hp)
            | _ => rfl
        · congr 1
          · refine each_congr fun q hq => ?_
            obtain ⟨f, s⟩ := q
            have hq := (List.mem_filter.mp hq).1
            unfold patternsOf at hq
            cases hps : AMap.get m kPatternProperties with
            | none => simp [hps] at hq
            | some v =>
              cases v with
              | map ps =>
                simp only [hps] at hq
                obtain ⟨q, hq, _⟩ := (compile_mem E ps f s).mp hq
                exact h s x (.patterns hps hq hp)
              | _ => simp [hps] at hq
          · rw [extra_congr fun s hs => h s x (.additionalProperties hs hp)]
      have a2 : vDependencies E r1 m dm = vDependencies E r2 m dm := by
        refine kw_congr fun deps hd => ?_
        split
        · refine each_congr fun p hp => ?_
          obtain ⟨k, dep⟩ := p
          simp only
          split
          · split
            · rfl
            · rfl
            · exact h _ _ (.dependencies hd hp)
            · rfl
          · rfl
        · rfl
      rw [a1, a2]
    · rfl
  have h4 : vCombinations r1 m d = vCombinations r2 m d := by
    unfold vCombinations
    have a1 : vAllOf r1 m d = vAllOf r2 m d := by
      refine kw_congr fun v hv => ?_
      split
      · exact each_congr fun s hs => h s d (.allOf hv hs)
      · rfl
    have a2 : vAnyOf r1 m d = vAnyOf r2 m d := by
      refine kw_congr fun v hv => ?_
      split
      · exact anyOf_congr fun s hs => h s d (.anyOf hv hs)
      · rfl
    have a3 : vOneOf r1 m d = vOneOf r2 m d := by
      refine kw_congr fun v hv => ?_
      split
      · exact oneOf_congr (fun s hs => h s d (.oneOf hv hs)) 0
      · rfl
    have a4 : vNot r1 m d = vNot r2 m d := by
      refine kw_congr fun v hv => ?_
      rw [h v d (.not hv)]
    rw [a1, a2, a3, a4]
  unfold body
  rw [h1, h2, h3, h4]

/-- A validation whose chains of steps stay below the limit gives the same result at any depth
with room for them. -/
theorem validate_depth (E : Env) (n : Nat) : ∀ (s d : Val) (f1 f2 d1 d2 : Nat), Within E n (s, d) →
    n ≤ f1 → n ≤ f2 → d1 + n ≤ recursionLimit → d2 + n ≤ recursionLimit →
    validate E f1 d1 s d = validate E f2 d2 s d := by
  induction n with
  | zero => intro s d f1 f2 d1 d2 h; exact h.elim
  | succ n ih =>
    intro s d f1 f2 d1 d2 h a1 a2 a3 a4
    obtain ⟨f1, rfl⟩ : ∃ g, f1 = g + 1 := ⟨f1 - 1, by omega⟩
    obtain ⟨f2, rfl⟩ : ∃ g, f2 = g + 1 := ⟨f2 - 1, by omega⟩
    simp only [validate]
    rw [if_neg (by omega), if_neg (by omega)]
    cases s with
    | map m =>
      exact body_congr E fun s x hs => ih s x f1 f2 (d1 + 1) (d2 + 1) (h _ hs) (by omega) (by omega) (by omega) (by omega)
    | _ => rfl

/-- With enough calls allowed the number allowed does not matter. -/
theorem validate_fuel (E : Env) (f1 : Nat) : ∀ (f2 depth : Nat) (s d : Val), recursionLimit + 1 ≤ f1 + depth →
    recursionLimit + 1 ≤ f2 + depth → depth ≤ recursionLimit → validate E f1 depth s d = validate E f2 depth s d := by
  induction f1 with
  | zero => intro f2 depth s d h1 h2 h3; omega
  | succ f1 ih =>
    intro f2 depth s d h1 h2 h3
    obtain ⟨f2, rfl⟩ : ∃ g, f2 = g + 1 := ⟨f2 - 1, by omega⟩
    simp only [validate]
    by_cases hlt : depth + 1 > recursionLimit
    · rw [if_pos hlt, if_pos hlt]
    · rw [if_neg hlt, if_neg hlt]
      cases s with
      | map m => exact body_congr E fun s x _ => ih f2 (depth + 1) s x (by omega) (by omega) (by omega)
      | _ => rfl

theorem within_mono (E : Env) (n : Nat) : ∀ a, Within E n a → Within E (n + 1) a := by
  induction n with
  | zero => intro a h; exact h.elim
  | succ n ih => intro a h b hb; exact ih b (h b hb)

end Verif.Schema
