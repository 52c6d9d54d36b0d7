import Verif.Args.ValidateRuns
/-!
# The whole schema of descriptions, and its loader
-/

namespace Verif.Args
open Verif Schema Loader

variable {E : Env} {dm : List (Bytes × Val)} {dep : Nat} {x : Val}

/-! ## Options, arguments and groups -/

theorem run_needs (hd : dep ≤ 99) (k : Bytes) : V E dep (needsKey k) (.map dm) = if (AMap.get dm k).isSome then ok else err := by
  unfold needsKey
  rw [V_map hd]
  unfold body
  rw [noRef (by rfl), noType (by rfl), noEnum (by rfl), noNumeric (by rfl), noString (by rfl), noArray (by rfl), noCombinations (by rfl)]
  have h1 : vProperties E (V E (dep + 1)) [(Schema.kRequired, .list [.str k])] dm = ok := by
    show seq ok (seq ok (Schema.each _ dm)) = ok
    rw [each_ok]
    · rfl
    · intro p _; rfl
  show seq ok (seq ok (seq ok (seq ok (seq ok (seq ok (seq (seq ok (seq (seq (if (AMap.get dm k).isSome then ok else err) ok)
    (seq (vProperties E (V E (dep + 1)) [(Schema.kRequired, .list [.str k])] dm) ok))) ok)))))) = _
  rw [h1]
  cases (AMap.get dm k).isSome <;> rfl

theorem acc_needsEither (hd : dep ≤ 99) (a b : Bytes) : Acc (anyOfLoop (V E dep) (.map dm) [needsKey a, needsKey b]) ↔
    (AMap.get dm a).isSome = true ∨ (AMap.get dm b).isSome = true := by
  constructor
  · intro h
    rcases acc_any2 h with h | h
    · rw [run_needs hd] at h
      by_cases h' : (AMap.get dm a).isSome = true
      · exact .inl h'
      · rw [if_neg h'] at h; cases h
    · rw [run_needs hd] at h
      by_cases h' : (AMap.get dm b).isSome = true
      · exact .inr h'
      · rw [if_neg h'] at h; cases h
  · intro h
    refine any2_acc ?_
    rw [run_needs hd, run_needs hd]
    by_cases ha : (AMap.get dm a).isSome = true
    · rw [if_pos ha]; exact .inl rfl
    · rcases h with h | h
      · exact absurd h ha
      · rw [if_neg ha, if_pos h]; exact .inr ⟨⟨_, _, rfl⟩, rfl⟩

theorem acc_baseRef (hp : 64 ≤ E.p) (H : HasArgs E) (hd : dep ≤ 80) :
    Acc (V E dep (refTo [] (inDefinitions ++ nOptionBase)) (.map dm)) ↔ EntryOk E dm := by
  rw [acc_refTo H.base, acc_base hp H (by omega)]
  exact and_iff_right (by omega)

theorem acc_optionSchema (hp : 64 ≤ E.p) (H : HasArgs E) (hd : dep ≤ 70) : Acc (V E dep optionSchema x) ↔ OptionOk E x := by
  unfold optionSchema
  rw [accV_map]; unfold body
  rw [noRef (by rfl), noEnum (by rfl), noNumeric (by rfl), noString (by rfl), noArray (by rfl)]
  simp only [acc_seq, acc_ok, true_and]
  rw [acc_vType rfl, is_object]
  have key : ∀ dm, Acc (vObject E (V E (dep + 1)) [(kAllOf, .list [refTo [] (inDefinitions ++ nOptionBase)]),
      (kAnyOf, .list [needsKey kShortOption, needsKey kLongOption]), (kProperties, .map optionProperties), (kType, .str wObject)] (.map dm)) ↔
      Keys [(kEnv, IsText), (kLongOption, IsText), (kShortOption, IsChar)] dm := by
    intro dm
    rw [acc_vObject rfl rfl, acc_noRequired rfl, keys_iff (by decide)]
    · exact and_iff_right trivial
    · exact .cons (fun v => acc_text (by omega)) <| .cons (fun v => acc_text (by omega)) <| .cons (fun v => acc_short (by omega)) .nil
  have comb : ∀ dm, Acc (vCombinations (V E (dep + 1)) [(kAllOf, .list [refTo [] (inDefinitions ++ nOptionBase)]),
      (kAnyOf, .list [needsKey kShortOption, needsKey kLongOption]), (kProperties, .map optionProperties), (kType, .str wObject)] (.map dm)) ↔
      EntryOk E dm ∧ ((AMap.get dm kShortOption).isSome = true ∨ (AMap.get dm kLongOption).isSome = true) := by
    intro dm
    show Acc (seq (seq (V E (dep + 1) (refTo [] (inDefinitions ++ nOptionBase)) (.map dm)) ok)
      (seq (anyOfLoop (V E (dep + 1)) (.map dm) [needsKey kShortOption, needsKey kLongOption]) (seq ok ok))) ↔ _
    simp only [acc_seq, acc_ok, and_true]
    rw [acc_baseRef hp H (by omega), acc_needsEither (by omega)]
  constructor
  · rintro ⟨_, ⟨m, rfl⟩, h1, h2⟩
    exact ⟨m, rfl, ((comb m).1 h2).1, (key m).1 h1, ((comb m).1 h2).2⟩
  · rintro ⟨m, rfl, h1, h2, h3⟩
    exact ⟨by omega, ⟨m, rfl⟩, (key m).2 h2, (comb m).2 ⟨h1, h3⟩⟩

theorem acc_argumentSchema (hp : 64 ≤ E.p) (H : HasArgs E) (hd : dep ≤ 70) : Acc (V E dep argumentSchema x) ↔ ArgumentOk E x := by
  unfold argumentSchema
  rw [accV_map]; unfold body
  rw [noRef (by rfl), noEnum (by rfl), noNumeric (by rfl), noString (by rfl), noArray (by rfl)]
  simp only [acc_seq, acc_ok, true_and]
  rw [acc_vType rfl, is_object]
  have key : ∀ dm, Acc (vObject E (V E (dep + 1)) [(kAllOf, .list [refTo [] (inDefinitions ++ nOptionBase)]),
      (kProperties, .map [(kKeypath, typed wString)]), (kRequired, .list [.str kKeypath]), (kType, .str wObject)] (.map dm)) ↔
      (AMap.get dm kKeypath).isSome = true ∧ Keys [(kKeypath, IsText)] dm := by
    intro dm
    rw [acc_vObject rfl rfl, acc_needs (ks := [kKeypath]) rfl, keys_iff (fs := [(kKeypath, IsText)]) (by decide)]
    · simp only [List.mem_cons, List.not_mem_nil, or_false, forall_eq]
    · exact .cons (fun v => acc_text (by omega)) .nil
  have comb : ∀ dm, Acc (vCombinations (V E (dep + 1)) [(kAllOf, .list [refTo [] (inDefinitions ++ nOptionBase)]),
      (kProperties, .map [(kKeypath, typed wString)]), (kRequired, .list [.str kKeypath]), (kType, .str wObject)] (.map dm)) ↔ EntryOk E dm := by
    intro dm
    show Acc (seq (seq (V E (dep + 1) (refTo [] (inDefinitions ++ nOptionBase)) (.map dm)) ok) (seq ok (seq ok ok))) ↔ _
    simp only [acc_seq, acc_ok, and_true]
    rw [acc_baseRef hp H (by omega)]
  constructor
  · rintro ⟨_, ⟨m, rfl⟩, h1, h2⟩
    exact ⟨m, rfl, (comb m).1 h2, ((key m).1 h1).2, ((key m).1 h1).1⟩
  · rintro ⟨m, rfl, h1, h2, h3⟩
    exact ⟨by omega, ⟨m, rfl⟩, (key m).2 ⟨h3, h2⟩, (comb m).2 h1⟩

/-- A list of such things. -/
theorem acc_listSchema {m im : List (Bytes × Val)} (hm : m = [(kItems, .map im), (kType, .str wArray)] ∨ m = [(kItems, .map im), (kType, .str wArray), (kUnique, .bool true)])
    {P : Val → Prop} (hd : dep ≤ 99) (h : ∀ y, Acc (V E (dep + 1) (.map im) y) ↔ P y) :
    Acc (V E dep (.map m) x) ↔ ∃ xs, x = .list xs ∧ ∀ y ∈ xs, P y := by
  have ht : AMap.get m kType = some (.str wArray) := by rcases hm with rfl | rfl <;> rfl
  have hb : Acc (body E (V E (dep + 1)) m x) ↔ Acc (vType E m x) ∧ Acc (vArray E (V E (dep + 1)) m x) := by
    rcases hm with rfl | rfl
    all_goals
      unfold body
      rw [noRef (by rfl), noEnum (by rfl), noNumeric (by rfl), noString (by rfl), noObject (by rfl), noCombinations (by rfl)]
      simp only [acc_seq, acc_ok, true_and, and_true]
  rw [accV_map, hb, acc_vType ht, is_array]
  have key : ∀ xs, Acc (vArray E (V E (dep + 1)) m (.list xs)) ↔ ∀ y ∈ xs, P y := by
    intro xs
    have e : vArray E (V E (dep + 1)) m (.list xs) = seq (seq ok ok) (seq ok (Schema.each (fun y => V E (dep + 1) (.map im) y) xs)) := by
      rcases hm with rfl | rfl <;> rfl
    rw [e]
    simp only [acc_seq, acc_ok, true_and, acc_each, h]
  constructor
  · rintro ⟨_, ⟨xs, rfl⟩, h⟩; exact ⟨xs, rfl, (key xs).1 h⟩
  · rintro ⟨xs, rfl, h⟩; exact ⟨hd, ⟨xs, rfl⟩, (key xs).2 h⟩

/-- A map of such things. -/
theorem acc_mapSchema {im : List (Bytes × Val)} {P : Val → Prop} (hd : dep ≤ 99) (h : ∀ y, Acc (V E (dep + 1) (.map im) y) ↔ P y) :
    Acc (V E dep (.map [(kAdditionalProperties, .map im), (kType, .str wObject)]) x) ↔ MapOf P x := by
  rw [accV_map, acc_mapBody (.inr rfl)]
  unfold MapOf
  simp only [h]
  exact and_iff_right hd

/-- A map with known keys. -/
theorem acc_recordSchema {m ps : List (Bytes × Val)} {fs : List (Bytes × (Val → Prop))} (hm : m = argMap ∨ m = [(kProperties, .map ps), (kType, .str wObject)])
    (hps : AMap.get m kProperties = some (.map ps))
    (hd : dep ≤ 99) (hn : (ps.map Prod.fst).Nodup) (h : Pairs (fun s P => ∀ v, Acc (V E (dep + 1) s v) ↔ P v) ps fs) :
    Acc (V E dep (.map m) x) ↔ ∃ dm, x = .map dm ∧ Keys fs dm := by
  have ht : AMap.get m kType = some (.str wObject) := by rcases hm with rfl | rfl <;> rfl
  have hq : AMap.get m kRequired = none := by rcases hm with rfl | rfl <;> rfl
  have hz : none' m [kMinProperties, kMaxProperties, kPatternProperties, kAdditionalProperties, kDependencies] = true := by
    rcases hm with rfl | rfl <;> rfl
  have hb : Acc (body E (V E (dep + 1)) m x) ↔ Acc (vType E m x) ∧ Acc (vObject E (V E (dep + 1)) m x) := by
    rcases hm with rfl | rfl
    all_goals
      unfold body
      rw [noRef (by rfl), noEnum (by rfl), noNumeric (by rfl), noString (by rfl), noArray (by rfl), noCombinations (by rfl)]
      simp only [acc_seq, acc_ok, true_and, and_true]
  rw [accV_map, hb, acc_vType ht, is_object]
  have key : ∀ dm, Acc (vObject E (V E (dep + 1)) m (.map dm)) ↔ Keys fs dm := by
    intro dm
    rw [acc_vObject hps hz, acc_noRequired hq, keys_iff hn h]
    exact and_iff_right trivial
  constructor
  · rintro ⟨_, ⟨dm, rfl⟩, h⟩; exact ⟨dm, rfl, (key dm).1 h⟩
  · rintro ⟨dm, rfl, h⟩; exact ⟨hd, ⟨dm, rfl⟩, (key dm).2 h⟩

theorem acc_groupSchema (hd : dep ≤ 70) : Acc (V E dep groupOfSchema x) ↔ GroupOk x := by
  refine acc_recordSchema (.inr rfl) rfl (by omega) (by decide) ?_
  exact .cons (fun v => acc_fl (by omega)) <| .cons (fun v => acc_text (by omega)) <|
    .cons (fun v => acc_listSchema (.inr rfl) (by omega) fun y => acc_text (by omega)) <| .cons (fun v => acc_bool (by omega)) <|
    .cons (fun v => acc_bool (by omega)) <| .cons (fun v => acc_text (by omega)) .nil

theorem acc_argSchema (hp : 64 ≤ E.p) (H : HasArgs E) : Acc (V E 0 argSchema x) ↔ DescriptionOk E x := by
  refine acc_recordSchema (.inl rfl) rfl (by omega) (by decide) ?_
  exact .cons (fun v => acc_listSchema (.inl rfl) (by omega) fun y => acc_argumentSchema hp H (by omega)) <| .cons (fun v => acc_text (by omega)) <|
    .cons (fun v => acc_text (by omega)) <| .cons (fun v => acc_mapSchema (by omega) fun y => acc_groupSchema (by omega)) <|
    .cons (fun v => acc_mapSchema (by omega) fun y => acc_optionSchema hp H (by omega)) <| .cons (fun v => acc_text (by omega)) .nil

/-! ## The references -/

/-- The local schemas when descriptions are validated: the schema of schemas and that of descriptions. -/
theorem arg_known : AMap.get (localLayer metaEntry argSchema).schemas [] = some argSchema := by
  have h : (localLayer metaEntry argSchema).schemas = insertAll [metaEntry] (search [] [([], norm [] argSchema)] (norm [] argSchema)) := by
    unfold localLayer addSchema found
    rw [resolve_nil]
  rw [h, arg_normed]
  have hs : search [] [([], argSchema)] argSchema = [([], argSchema)] := by
    have : same (.map (search [] [([], argSchema)] argSchema)) (.map [([], argSchema)]) = true := by decide +kernel
    exact Val.map.inj (same_eq this)
  rw [hs]
  rfl

theorem arg_only (frag : Bytes) : AMap.get (localLayer metaEntry argSchema).schemas (35 :: frag) = none := by
  have h : (localLayer metaEntry argSchema).schemas = insertAll [metaEntry] (search [] [([], norm [] argSchema)] (norm [] argSchema)) := by
    unfold localLayer addSchema found
    rw [resolve_nil]
  rw [h, arg_normed]
  have hs : search [] [([], argSchema)] argSchema = [([], argSchema)] := by
    have : same (.map (search [] [([], argSchema)] argSchema)) (.map [([], argSchema)]) = true := by decide +kernel
    exact Val.map.inj (same_eq this)
  rw [hs]
  show (if [] = 35 :: frag then _ else if metaUri = 35 :: frag then _ else none) = none
  rw [if_neg nofun, if_neg (by simp [metaUri])]

theorem arg_lookup (p : Nat) (frag : Bytes) : lookup p metaEntry [] argSchema (35 :: frag) = inside p argSchema frag := by
  have e : splitUri (35 :: frag) = ([], frag) := splitUri_hash (base := []) nofun
  unfold lookup getSchema
  rw [arg_only, e]
  simp only [arg_known]

theorem inside_arg (p : Nat) : ∀ e ∈ argDefinitions, inside p argSchema (inDefinitions ++ e.1) = .ok e.2 := by
  intro e he
  unfold argDefinitions at he
  simp only [List.mem_cons, List.not_mem_nil, or_false] at he
  unfold inside
  rcases he with rfl | rfl | rfl
  all_goals
    rw [unescape_plain (by decide)]
    rfl

theorem has_args (E : Env) : HasArgs { E with loader := lookup E.p metaEntry [] argSchema } := by
  have h : ∀ e ∈ argDefinitions, lookup E.p metaEntry [] argSchema ([] ++ 35 :: (inDefinitions ++ e.1)) = .ok e.2 :=
    fun e he => (arg_lookup _ _).trans (inside_arg _ e he)
  unfold argDefinitions at h
  simp only [List.mem_cons, List.not_mem_nil, or_false, forall_eq_or_imp, forall_eq] at h
  generalize lookup E.p metaEntry [] argSchema = l at h ⊢
  exact ⟨h.1, h.2.2, h.2.1⟩

/-! ## The validator understands the schema -/

/-- The schemas in the schema of descriptions. -/
def argParts : List Val :=
  [argSchema, actionSchema, typeSchema, choiceSchema, choicesSchema, baseSchema, shortSchema, needsKey kShortOption, needsKey kLongOption, optionSchema,
   argumentSchema, membersSchema, groupOfSchema, .map [], flag, typed wString, typed wNumber, typed wBoolean, positiveInteger, regexText,
   refTo [] (inDefinitions ++ nActions), refTo [] (inDefinitions ++ nTypes), refTo [] (inDefinitions ++ nOptionBase),
   .map [(kItems, argumentSchema), (kType, .str wArray)], .map [(kAdditionalProperties, groupOfSchema), (kType, .str wObject)],
   .map [(kAdditionalProperties, optionSchema), (kType, .str wObject)]]

theorem arg_understood {E : Env} (H : HasArgs E) : ∀ t ∈ argParts, ∃ m, t = .map m ∧ Understood E (· ∈ argParts) m := by
  intro t ht
  have ty : ∀ w, w ∈ [wArray, wBoolean, wInteger, wNull, wNumber, wObject, wString] → IsTypeName (.str w) ∨ ∃ ws, Val.str w = .list ws ∧ ∀ w ∈ ws, IsTypeName w :=
    fun w hw => .inl ⟨w, rfl, hw⟩
  have props : ∀ {ps : List (Bytes × Val)}, (∀ e ∈ ps, e.2 ∈ argParts) → MapOf (· ∈ argParts) (.map ps) := fun h => ⟨_, rfl, fun k x hx => h (k, x) hx⟩
  unfold argParts at ht
  simp only [List.mem_cons, List.not_mem_nil, or_false] at ht
  rcases ht with rfl | rfl | rfl | rfl | rfl | rfl | rfl | rfl | rfl | rfl | rfl | rfl | rfl | rfl | rfl | rfl | rfl | rfl | rfl | rfl |
    rfl | rfl | rfl | rfl | rfl | rfl
  all_goals refine ⟨_, rfl, ?_⟩
  all_goals constructor
  all_goals try absent
  all_goals try exact (forall_has rfl).2 (ty _ (by simp))
  all_goals try exact vacsOne kMinimum rfl rfl rfl
  all_goals try exact vacsOne kMinItems rfl rfl ⟨rfl, 1, rfl⟩
  all_goals try exact vacsOne kAdditionalProperties rfl rfl (.inr (by simp [argParts]))
  all_goals try exact (forall_has rfl).2 (.inl ⟨by simp [argParts], nofun⟩)
  all_goals try exact (forall_has rfl).2 ⟨true, rfl⟩
  all_goals try exact (forall_has rfl).2 ⟨_, rfl⟩
  all_goals try exact (forall_has rfl).2 ⟨_, rfl, fun k hk => by simp only [List.mem_cons, List.not_mem_nil, or_false] at hk; first | exact ⟨_, hk⟩ | (rcases hk with h | h | h <;> exact ⟨_, h⟩)⟩
  all_goals try (intro r hr; cases hr; first
    | exact ⟨_, H.actions, by simp [argParts]⟩
    | exact ⟨_, H.types, by simp [argParts]⟩
    | exact ⟨_, H.base, by simp [argParts]⟩)
  · exact (forall_has rfl).2 (props (by simp [argProperties, argParts]))
  · refine (forall_has rfl).2 (.inr ⟨_, rfl, fun w hw => ?_⟩)
    simp only [List.mem_cons, List.not_mem_nil, or_false] at hw
    rcases hw with rfl | rfl | rfl | rfl <;> exact ⟨_, rfl, by simp⟩
  · exact (forall_has rfl).2 (props (by simp [baseProperties, argParts]))
  · intro k l hk hl
    simp only [List.mem_cons, List.not_mem_nil, or_false] at hk
    rcases hk with rfl | rfl | rfl | rfl | rfl | rfl <;> cases hl
    all_goals exact ⟨rfl, 1, rfl⟩
  · exact (forall_has rfl).2 (props (by simp [optionProperties, argParts]))
  · intro k l hk hl
    simp only [List.mem_cons, List.not_mem_nil, or_false] at hk
    rcases hk with rfl | rfl | rfl <;> cases hl
    all_goals exact ⟨_, rfl, by simp [argParts]⟩
  · exact (forall_has rfl).2 (props (by simp [argParts]))
  · exact vacsOne kAllOf rfl rfl ⟨_, rfl, by simp [argParts]⟩
  · exact (forall_has rfl).2 (props (by simp [groupProperties, argParts]))
  · intro w re hm hf
    cases hf
    simp only [List.mem_cons, List.not_mem_nil, or_false, Prod.mk.injEq] at hm
    rcases hm with ⟨h, _⟩ | ⟨h, _⟩ | ⟨h, _⟩ <;> exact absurd h (by decide)

theorem arg_calm {E : Env} (hp : 64 ≤ E.p) (d : Val) : Calm true (V { E with loader := lookup E.p metaEntry [] argSchema } 0 argSchema d) := by
  have H := has_args E
  generalize hE : ({ E with loader := lookup E.p metaEntry [] argSchema } : Env) = E' at H ⊢
  have hp' : 64 ≤ E'.p := by rw [← hE]; exact hp
  have hm : argSchema ∈ argParts := by unfold argParts; exact List.mem_cons_self
  exact family_calm hp' (S := (· ∈ argParts)) (arg_understood H) 101 0 argSchema d (by decide) (by decide) hm

theorem arg_run (E : Env) (d : Val) : schemaValidate E metaEntry [] argSchema d =
    outcome (V { E with loader := lookup E.p metaEntry [] argSchema } 0 argSchema d) := by
  have h : chosenSchema E.p metaEntry [] argSchema d = .ok argSchema := by
    have : namedSchema argSchema d = argSchema := by unfold argSchema; cases d <;> rfl
    unfold chosenSchema
    rw [this]; rfl
  unfold schemaValidate
  rw [h]
  simp only [arg_normed]
  rfl

/-- Descriptions of good form do not depend on the loader. -/
theorem descriptionOk_loader {E : Env} {l : Bytes → Out Val} {d : Val} : DescriptionOk { E with loader := l } d ↔ DescriptionOk E d := by
  have h : EntryOk { E with loader := l } = EntryOk E :=
    funext fun m => propext ⟨fun ⟨a, b, c, d⟩ => ⟨a, b, c, d⟩, fun ⟨a, b, c, d⟩ => ⟨a, b, c, d⟩⟩
  have h1 : OptionOk { E with loader := l } = OptionOk E := by funext v; unfold OptionOk; rw [h]
  have h2 : ArgumentOk { E with loader := l } = ArgumentOk E := by funext v; unfold ArgumentOk; rw [h]
  unfold DescriptionOk; rw [h1, h2]

/-- The schema of descriptions accepts those of good form, and says of all others that they are not. -/
theorem description_run {E : Env} (hp : 64 ≤ E.p) (d : Val) :
    (DescriptionOk E d → schemaValidate E metaEntry [] argSchema d = some (.ok ⟨false, false⟩)) ∧
    (¬ DescriptionOk E d → ∃ e se, schemaValidate E metaEntry [] argSchema d = some (.ok ⟨e, se⟩) ∧ (e || se) = true) := by
  have H := has_args E
  have hc := arg_calm hp d
  rw [arg_run]
  have ha : Acc (V { E with loader := lookup E.p metaEntry [] argSchema } 0 argSchema d) ↔ DescriptionOk E d := by
    rw [← descriptionOk_loader (l := lookup E.p metaEntry [] argSchema)]
    generalize hE : ({ E with loader := lookup E.p metaEntry [] argSchema } : Env) = E' at H ⊢
    exact acc_argSchema (by rw [← hE]; exact hp) H
  generalize V { E with loader := lookup E.p metaEntry [] argSchema } 0 argSchema d = r at ha hc ⊢
  constructor
  · intro h; exact outcome_accept.2 (.inl (ha.2 h))
  · intro h
    obtain ⟨e, se, h1, _⟩ := outcome_calm hc
    refine ⟨e, se, h1, ?_⟩
    cases e <;> cases se
    · rcases outcome_accept.1 h1 with h2 | h2
      · exact absurd (ha.1 h2) h
      · rcases hc with h' | h' | ⟨_, h'⟩ <;> rw [h'] at h2 <;> cases h2
    all_goals rfl

end Verif.Args
