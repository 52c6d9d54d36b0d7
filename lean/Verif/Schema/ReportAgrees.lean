import Verif.Schema.Report
/-!
# The two models of the validator agree
-/

namespace Verif.Schema
open Verif

/-- A report, without what it says. -/
def D.forget : D → R
  | .go q => .go (!q.isEmpty)
  | .stop e q => .stop (!e.isEmpty) (!q.isEmpty)
  | .exn e => .exn e
  | .ub => .ub

abbrev forget (x : DM) : M := x.map D.forget

theorem forget_seq {a b : DM} {a' b' : M} (ha : forget a = a') (hb : forget b = b') : forget (seqD a b) = seq a' b' := by
  subst ha hb
  rcases a with _ | (q | ⟨e, q⟩ | e | _)
  · rfl
  · rcases b with _ | (q' | ⟨e, q'⟩ | e | _)
    · rfl
    · simp [seqD, seq, forget, D.forget]
      cases q <;> cases q' <;> rfl
    · simp [seqD, seq, forget, D.forget]
      cases q <;> cases q' <;> rfl
    · rfl
    · rfl
  · rfl
  · rfl
  · rfl

theorem forget_each {α : Type} {f : Nat → α → DM} {g : α → M} (h : ∀ i x, forget (f i x) = g x) (i : Nat) (xs : List α) :
    forget (eachD f i xs) = each g xs := by
  induction xs generalizing i with
  | nil => rfl
  | cons x xs ih => exact forget_seq (h i x) (ih (i + 1))

theorem forget_withOut {α : Type} {o : Out α} {f : α → DM} {g : α → M} (h : ∀ a, forget (f a) = g a) :
    forget (withOutD o f) = withOut o g := by
  cases o with
  | ok a => exact h a
  | throw e => rfl
  | ub => rfl

theorem forget_kw {m : List (Bytes × Val)} {k : Bytes} {c : Ctx} {f : Ctx → Val → DM} {g : Val → M}
    (h : ∀ c v, forget (f c v) = g v) : forget (kwD m k c f) = kw m k g := by
  unfold kwD kw
  cases AMap.get m k with
  | none => rfl
  | some v => exact h _ v

/-- The two ways to validate a subschema agree. -/
def Agree (rec : RecD) (rec' : Val → Val → M) : Prop := ∀ c s d, forget (rec c s d) = rec' s d

variable {rec : RecD} {rec' : Val → Val → M} {E : Env}

theorem forget_not (h : Agree rec rec') (c : Ctx) (m : List (Bytes × Val)) (d : Val) : forget (vNotD rec c m d) = vNot rec' m d := by
  refine forget_kw fun c s => ?_
  rw [← h c s d]
  rcases rec c s d with _ | ((_ | ⟨x, q⟩) | ⟨e, q⟩ | e | _) <;> rfl

theorem forget_oneOfLoop (h : Agree rec rec') (c : Ctx) (d : Val) (ss : List Val) :
    ∀ (num i : Nat) (subs : List Report), forget (oneOfLoopD rec c d num i subs ss) = oneOfLoop rec' d num ss := by
  induction ss with
  | nil => intro num i subs; rw [oneOfLoopD, oneOfLoop]; split <;> rfl
  | cons s ss ih =>
    intro num i subs
    rw [oneOfLoopD, oneOfLoop, ← h (c.at (idx i)) s d]
    rcases rec (c.at (idx i)) s d with _ | ((_ | ⟨x, q⟩) | ⟨e, q⟩ | e | _)
    · rfl
    · show forget (if num + 1 > 1 then _ else _) = if num + 1 > 1 then _ else _
      split
      · rfl
      · exact ih ..
    · exact ih ..
    · exact ih ..
    · rfl
    · rfl

theorem forget_anyOfLoop (h : Agree rec rec') (c : Ctx) (d : Val) (ss : List Val) :
    ∀ (i : Nat) (subs : List Report), forget (anyOfLoopD rec c d i subs ss) = anyOfLoop rec' d ss := by
  induction ss with
  | nil => intro i subs; rfl
  | cons s ss ih =>
    intro i subs
    rw [anyOfLoopD, anyOfLoop, ← h (c.at (idx i)) s d]
    rcases rec (c.at (idx i)) s d with _ | ((_ | ⟨x, q⟩) | ⟨e, q⟩ | e | _)
    · rfl
    · rfl
    · exact ih ..
    · exact ih ..
    · rfl
    · rfl

theorem forget_combinations (h : Agree rec rec') (c : Ctx) (m : List (Bytes × Val)) (d : Val) :
    forget (vCombinationsD rec c m d) = vCombinations rec' m d := by
  refine forget_seq (forget_kw fun c v => ?_) (forget_seq (forget_kw fun c v => ?_) (forget_seq (forget_kw fun c v => ?_) (forget_not h ..)))
  · cases v <;> first | rfl | exact forget_each (fun i s => by exact h _ _ _) _ _
  · cases v <;> first | rfl | exact forget_anyOfLoop h ..
  · cases v <;> first | rfl | exact forget_oneOfLoop h ..

theorem forget_depKey (c : Ctx) (dm : List (Bytes × Val)) (k : Bytes) : forget (depKeyD c dm k) = depKey dm k := by
  unfold depKeyD depKey
  split <;> rfl

theorem forget_dependencies (h : Agree rec rec') (c : Ctx) (m dm : List (Bytes × Val)) :
    forget (vDependenciesD E rec c m dm) = vDependencies E rec' m dm := by
  refine forget_kw fun c v => ?_
  cases v <;> first | rfl | skip
  refine forget_each (fun _ e => ?_) ..
  obtain ⟨k, dep⟩ := e
  unfold vDependencyD
  dsimp only
  split
  · cases dep <;> first | rfl | skip
    · exact forget_depKey ..
    · exact forget_each (fun j x => by exact forget_withOut fun a => forget_depKey ..) _ _
    · exact h ..
  · rfl

theorem forget_compile (E : Env) (c : Ctx) : ∀ ps : List (Bytes × Val),
    (compile E ps).1 = (compileD E c ps).1.map (fun p => p.2) ∧ (!(compile E ps).2) = !(compileD E c ps).2.isEmpty
  | [] => ⟨rfl, rfl⟩
  | (k, s) :: r => by
    have ih := forget_compile E c r
    rw [compile, compileD]
    cases E.regex (k.takeWhile (· ≠ 0)) with
    | none => exact ⟨ih.1, rfl⟩
    | some f => exact ⟨by simp [ih.1], ih.2⟩

theorem forget_patterns (E : Env) (c : Ctx) (m : List (Bytes × Val)) :
    (patternsOf E m).1 = (patternsOfD E c m).1.map (fun p => p.2) ∧ (!(patternsOf E m).2) = !(patternsOfD E c m).2.isEmpty := by
  unfold patternsOf patternsOfD
  cases AMap.get m kPatternProperties with
  | none => exact ⟨rfl, rfl⟩
  | some v => cases v <;> first | exact ⟨rfl, rfl⟩ | exact forget_compile ..

theorem forget_properties_of (c : Ctx) (m : List (Bytes × Val)) :
    (propertiesOf m).1 = (propertiesOfD c m).1 ∧ (!(propertiesOf m).2) = !(propertiesOfD c m).2.isEmpty := by
  unfold propertiesOf propertiesOfD
  cases AMap.get m kProperties with
  | none => exact ⟨rfl, rfl⟩
  | some v => cases v <;> exact ⟨rfl, rfl⟩

theorem forget_extra (h : Agree rec rec') (c : Ctx) (m : List (Bytes × Val)) (k : Bytes) (x : Val) :
    forget (extraD rec c m k x) = extra rec' m k x := by
  refine forget_kw fun c v => ?_
  cases v <;> first | exact h .. | skip
  rename_i b
  cases b <;> rfl

theorem each_map {α β : Type} (f : β → M) (g : α → β) : ∀ xs : List α, each f (xs.map g) = each (fun x => f (g x)) xs
  | [] => rfl
  | x :: xs => by rw [List.map_cons, each, each, each_map f g xs]

theorem forget_property (h : Agree rec rec') (c : Ctx) (m props : List (Bytes × Val)) (pats : List (Bytes × (Bytes → Bool) × Val))
    (k : Bytes) (x : Val) :
    forget (vPropertyD rec c m props pats k x) = vProperty rec' m props (pats.map fun p => p.2) k x := by
  unfold vPropertyD vProperty
  have hf : (pats.map fun p => p.2).filter (fun p => p.1 (k.takeWhile (· ≠ 0))) =
      (pats.filter fun p => p.2.1 (k.takeWhile (· ≠ 0))).map fun p => p.2 := by
    rw [List.filter_map]; rfl
  dsimp only
  rw [hf, each_map]
  refine forget_seq ?_ (forget_seq (forget_each (fun i p => by exact h _ _ _) _ _) ?_)
  · cases AMap.get props k with
    | none => rfl
    | some s => exact h ..
  · simp only [List.map_eq_nil_iff]
    split
    · exact forget_extra h ..
    · rfl

theorem forget_sizeLimit (c : Ctx) (m : List (Bytes × Val)) (k : Bytes) (bad : UInt64 → Bool) :
    forget (sizeLimitD c m k bad) = sizeLimit m k bad := by
  refine forget_kw fun c l => ?_
  split
  · exact forget_withOut fun u => by split <;> rfl
  · rfl

theorem forget_object (h : Agree rec rec') (c : Ctx) (m : List (Bytes × Val)) (d : Val) :
    forget (vObjectD E rec c m d) = vObject E rec' m d := by
  cases d <;> first | rfl | skip
  rename_i dm
  refine forget_seq (forget_seq (forget_sizeLimit ..) (forget_sizeLimit ..)) (forget_seq (forget_kw fun c r => ?_)
    (forget_seq (forget_seq ?_ (forget_seq ?_ ?_)) (forget_dependencies h ..)))
  · cases r <;> first | rfl | skip
    refine forget_each (fun i k => ?_) ..
    unfold requiredKeyD requiredKey
    cases k <;> first | rfl | skip
    dsimp only
    split <;> rfl
  · show some (R.go _) = some (R.go _)
    rw [(forget_patterns E c m).2]
  · show some (R.go _) = some (R.go _)
    rw [(forget_properties_of c m).2]
  · rw [(forget_patterns E c m).1, (forget_properties_of c m).1]
    exact forget_each (fun _ p => by exact forget_property h ..) _ _

theorem forget_itemsLoop (h : Agree rec rec') (c : Ctx) (m : List (Bytes × Val)) (xs : List Val) :
    ∀ (i : Nat) (ss : List Val), forget (itemsLoopD rec c m i ss xs) = itemsLoop rec' m ss xs := by
  induction xs with
  | nil => intro i ss; cases ss <;> rfl
  | cons x xs ih =>
    intro i ss
    cases ss with
    | nil => exact forget_seq (forget_extra h ..) (ih ..)
    | cons s ss => exact forget_seq (h ..) (ih ..)

theorem forget_unique (c : Ctx) : ∀ xs : List Val, forget (uniqueLoopD E c xs) = uniqueLoop E xs
  | [] => rfl
  | x :: xs => forget_seq (forget_each (fun _ y => by split <;> rfl) ..) (forget_unique c xs)

theorem forget_array (h : Agree rec rec') (c : Ctx) (m : List (Bytes × Val)) (d : Val) :
    forget (vArrayD E rec c m d) = vArray E rec' m d := by
  cases d <;> first | rfl | skip
  rename_i xs
  refine forget_seq (forget_seq (forget_sizeLimit ..) (forget_sizeLimit ..)) (forget_seq (forget_kw fun c u => ?_) ?_)
  · cases u <;> first | rfl | skip
    rename_i b
    cases b
    · rfl
    · exact forget_unique ..
  · unfold vItemsD vItems kw
    cases AMap.get m kItems with
    | none => rfl
    | some v => cases v <;> first | exact forget_itemsLoop h .. | exact forget_each (fun i x => by exact h _ _ _) _ _

theorem forget_matchRe (c : Ctx) (re s : Bytes) : forget (matchReD E c re s) = matchRe E re s := by
  unfold matchReD matchRe
  cases E.regex re with
  | none => rfl
  | some g => dsimp only; split <;> rfl

theorem forget_string (c : Ctx) (m : List (Bytes × Val)) (d : Val) : forget (vStringD E c m d) = vString E m d := by
  cases d <;> first | rfl | skip
  refine forget_seq (forget_seq (forget_sizeLimit ..) (forget_sizeLimit ..)) (forget_seq (forget_kw fun c p => ?_) (forget_kw fun c f => ?_))
  · cases p <;> first | rfl | exact forget_matchRe ..
  · cases f <;> first | rfl | skip
    rename_i f
    have pick : ∀ re s : Bytes, forget (if re = [] then okD else matchReD E c re s) = if re = [] then ok else matchRe E re s := by
      intro re s
      split
      · rfl
      · exact forget_matchRe ..
    dsimp only
    split
    · split <;> rfl
    · exact pick _ _

theorem forget_limit (c : Ctx) (m : List (Bytes × Val)) (k kx : Bytes) (d : Val) (bad : Int → Bool) :
    forget (limitD E c m k kx d bad) = limit E m k kx d bad := by
  refine forget_kw fun c l => ?_
  split
  · split
    · rfl
    · exact forget_kw fun c x => forget_withOut fun b => by split <;> rfl
  · rfl

theorem forget_multipleOf (c : Ctx) (m : List (Bytes × Val)) (d : Val) : forget (vMultipleOfD E c m d) = vMultipleOf E m d := by
  unfold vMultipleOfD vMultipleOf multKey kwD
  have : AMap.get m (if (AMap.get m kMultipleOf).isSome then kMultipleOf else kDivisibleBy) =
      (AMap.get m kMultipleOf).or (AMap.get m kDivisibleBy) := by
    cases h : AMap.get m kMultipleOf with
    | none => rfl
    | some v => simp [h]
  rw [this]
  cases (AMap.get m kMultipleOf).or (AMap.get m kDivisibleBy) with
  | none => rfl
  | some q =>
    dsimp only
    split
    · rfl
    · split
      · cases numLD E.p d <;> cases numLD E.p q <;> first | rfl | skip
        dsimp only
        split <;> rfl
      · exact forget_withOut fun r => by split <;> rfl

theorem forget_numeric (c : Ctx) (m : List (Bytes × Val)) (d : Val) : forget (vNumericD E c m d) = vNumeric E m d := by
  unfold vNumericD vNumeric
  split
  · exact forget_seq (forget_multipleOf ..) (forget_seq (forget_limit ..) (forget_limit ..))
  · rfl

theorem forget_enum (c : Ctx) (m : List (Bytes × Val)) (d : Val) : forget (vEnumD E c m d) = vEnum E m d := by
  refine forget_kw fun c e => ?_
  cases e <;> first | rfl | skip
  dsimp only
  split <;> rfl

theorem forget_typeLoop (c : Ctx) (d : Val) (ws : List Val) : ∀ i, forget (typeLoopD E c d i ws) = typeLoop E d ws := by
  induction ws with
  | nil => intro i; rfl
  | cons w ws ih =>
    intro i
    rw [typeLoopD, typeLoop]
    rcases hasType E d w with _ | (_ | _)
    · exact forget_withOut fun _ => forget_seq rfl (ih _)
    · exact ih _
    · rfl

theorem forget_type (c : Ctx) (m : List (Bytes × Val)) (d : Val) : forget (vTypeD E c m d) = vType E m d := by
  refine forget_kw fun c t => ?_
  cases t <;> exact forget_typeLoop ..

theorem forget_ref (h : Agree rec rec') (c : Ctx) (m : List (Bytes × Val)) (d : Val) : forget (vRefD E rec c m d) = vRef E rec' m d := by
  unfold vRefD vRef kw
  cases AMap.get m kRef with
  | none => rfl
  | some r => cases r <;> first | rfl | exact forget_withOut fun t => h ..

theorem forget_body (h : Agree rec rec') (c : Ctx) (m : List (Bytes × Val)) (d : Val) : forget (bodyD E rec c m d) = body E rec' m d :=
  forget_seq (forget_ref h ..) (forget_seq (forget_type ..) (forget_seq (forget_enum ..) (forget_seq (forget_numeric ..)
    (forget_seq (forget_string ..) (forget_seq (forget_array h ..) (forget_seq (forget_object h ..) (forget_combinations h ..)))))))

theorem forget_validate (E : Env) (fuel : Nat) : ∀ (depth : Nat) (c : Ctx) (s d : Val),
    forget (validateD E fuel depth c s d) = validate E fuel depth s d := by
  induction fuel with
  | zero => intro depth c s d; rfl
  | succ fuel ih =>
    intro depth c s d
    unfold validateD validate
    split
    · rfl
    · cases s <;> first | rfl | exact forget_body (fun c s d => ih _ c s d) ..

/-- What the caller gets says whether there are errors exactly as the other model does. -/
theorem report_agrees (E : Env) (builtin : Bytes × Val) (bases : List Loader.Layer) (s d : Val) :
    schemaValidate E builtin bases s d = (schemaReport E builtin bases s d).map
      (fun o => (fun r : Report => (⟨!r.1.isEmpty, !r.2.isEmpty⟩ : Result)) <$> o) := by
  unfold schemaValidate schemaReport
  cases chosenSchema E.p builtin bases s d with
  | throw e => rfl
  | ub => rfl
  | ok s =>
    dsimp only
    rw [← forget_validate _ _ _ ⟨[], []⟩]
    rcases validateD _ _ _ _ _ _ with _ | (q | ⟨e, q⟩ | e | _) <;> rfl

end Verif.Schema
