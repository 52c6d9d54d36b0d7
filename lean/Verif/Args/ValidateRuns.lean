import Verif.Args.ValidateSpec
import Verif.Schema.MetaLoad
import Verif.Schema.MetaProps
/-!
# What the schema of descriptions accepts
-/

namespace Verif.Args
open Verif Schema

/-- The loader answers the references of the schema of descriptions. -/
structure HasArgs (E : Env) : Prop where
  actions : E.loader ([] ++ 35 :: (inDefinitions ++ nActions)) = .ok actionSchema
  types : E.loader ([] ++ 35 :: (inDefinitions ++ nTypes)) = .ok typeSchema
  base : E.loader ([] ++ 35 :: (inDefinitions ++ nOptionBase)) = .ok baseSchema

variable {E : Env} {rec : Val → Val → M} {m dm : List (Bytes × Val)} {d : Val}

/-! ## Keys -/

/-- Schemas and forms by key. -/
inductive Pairs (R : Val → (Val → Prop) → Prop) : List (Bytes × Val) → List (Bytes × (Val → Prop)) → Prop
  | nil : Pairs R [] []
  | cons {k s P ps fs} : R s P → Pairs R ps fs → Pairs R ((k, s) :: ps) ((k, P) :: fs)

theorem Pairs.left {R : Val → (Val → Prop) → Prop} {ps fs} (h : Pairs R ps fs) {k s} (hs : (k, s) ∈ ps) : ∃ P, (k, P) ∈ fs ∧ R s P := by
  induction h with
  | nil => cases hs
  | cons h _ ih =>
    rcases List.mem_cons.1 hs with e | hs
    · cases e; exact ⟨_, List.mem_cons_self, h⟩
    · obtain ⟨P, h1, h2⟩ := ih hs; exact ⟨P, List.mem_cons_of_mem _ h1, h2⟩

theorem Pairs.right {R : Val → (Val → Prop) → Prop} {ps fs} (h : Pairs R ps fs) {k P} (hs : (k, P) ∈ fs) : ∃ s, (k, s) ∈ ps ∧ R s P := by
  induction h with
  | nil => cases hs
  | cons h _ ih =>
    rcases List.mem_cons.1 hs with e | hs
    · cases e; exact ⟨_, List.mem_cons_self, h⟩
    · obtain ⟨P, h1, h2⟩ := ih hs; exact ⟨P, List.mem_cons_of_mem _ h1, h2⟩

theorem get_mem_of {ps : List (Bytes × Val)} {k : Bytes} {s : Val} (h : AMap.get ps k = some s) : (k, s) ∈ ps := by
  induction ps with
  | nil => cases h
  | cons e ps ih =>
    obtain ⟨k', v⟩ := e
    simp only [AMap.get] at h
    split at h
    · rename_i e; cases h; subst e; exact List.mem_cons_self
    · exact List.mem_cons_of_mem _ (ih h)

theorem get_of_nodup {ps : List (Bytes × Val)} (hn : (ps.map Prod.fst).Nodup) {k : Bytes} {s : Val} (h : (k, s) ∈ ps) : AMap.get ps k = some s := by
  induction ps with
  | nil => cases h
  | cons e ps ih =>
    obtain ⟨k', v⟩ := e
    simp only [List.map_cons, List.nodup_cons] at hn
    simp only [AMap.get]
    rcases List.mem_cons.1 h with e | h
    · cases e; rw [if_pos rfl]
    · rw [if_neg, ih hn.2 h]
      intro e; subst e; exact hn.1 (List.mem_map_of_mem (f := Prod.fst) h)

theorem keys_iff {ps : List (Bytes × Val)} {fs : List (Bytes × (Val → Prop))} (hn : (ps.map Prod.fst).Nodup)
    (h : Pairs (fun s P => ∀ v, Acc (rec s v) ↔ P v) ps fs) :
    (∀ k v s, (k, v) ∈ dm → AMap.get ps k = some s → Acc (rec s v)) ↔ Keys fs dm := by
  constructor
  · intro h1 k P hP v hv
    obtain ⟨s, hs, hR⟩ := h.right hP
    exact (hR v).1 (h1 k v s hv (get_of_nodup hn hs))
  · intro h1 k v s hv hs
    obtain ⟨P, hP, hR⟩ := h.left (get_mem_of hs)
    exact (hR v).2 (h1 k P hP v hv)

/-! ## Objects -/

theorem acc_vObject {ps : List (Bytes × Val)} (hp : AMap.get m kProperties = some (.map ps))
    (hn : none' m [kMinProperties, kMaxProperties, kPatternProperties, kAdditionalProperties, kDependencies] = true) :
    Acc (vObject E rec m (.map dm)) ↔ Acc (vRequired m dm) ∧ ∀ k v s, (k, v) ∈ dm → AMap.get ps k = some s → Acc (rec s v) := by
  show Acc (seq (seq (kw m kMinProperties _) (kw m kMaxProperties _)) (seq (vRequired m dm) (seq (vProperties E rec m dm) (kw m kDependencies _)))) ↔ _
  rw [kw_none (none'_get hn (by simp)), kw_none (none'_get hn (by simp)), kw_none (none'_get hn (by simp))]
  have h1 : patternsOf E m = ([], true) := by unfold patternsOf; rw [none'_get hn (by simp)]
  have h2 : propertiesOf m = (ps, true) := by unfold propertiesOf; rw [hp]
  have hx : ∀ v, Schema.extra rec m kAdditionalProperties v = ok := fun v => kw_none (none'_get hn (by simp))
  unfold vProperties
  rw [h1, h2]
  simp only [acc_seq, acc_ok, true_and, and_true, acc_each, acc_go, Bool.not_true]
  refine and_congr_right fun _ => ⟨fun h k v s hm hs => ?_, fun h p hp => ?_⟩
  · have h := h (k, v) hm
    unfold vProperty at h
    simp only [hs] at h
    exact (acc_seq _ _).1 h |>.1
  · have h := h p.1 p.2
    unfold vProperty
    rw [hx]
    cases hg : AMap.get ps p.1 with
    | none => simp [acc_seq]
    | some s => simp [acc_seq]; exact h s hp hg

theorem acc_noRequired (h : AMap.get m kRequired = none) : Acc (vRequired m dm) ↔ True := by
  unfold vRequired; rw [kw_none h]; simp

theorem acc_needs {ks : List Bytes} (h : AMap.get m kRequired = some (.list (ks.map .str))) :
    Acc (vRequired m dm) ↔ ∀ k ∈ ks, (AMap.get dm k).isSome = true := by
  rw [acc_required, forall_has (P := fun r => ∃ ks, r = .list ks ∧ ∀ k ∈ ks, ∃ t x, k = .str t ∧ AMap.get dm t = some x) h]
  simp only [Val.list.injEq, exists_eq_left', List.mem_map, forall_exists_index, and_imp, forall_apply_eq_imp_iff₂, Val.str.injEq, exists_and_left,
    Option.isSome_iff_exists]

/-! ## The parts -/

variable {dep : Nat} {x : Val}

theorem acc_enumOf {vs : List Val} (h : AMap.get m kEnum = some (.list vs)) : Acc (vEnum E m x) ↔ ∃ y ∈ vs, veq E.p y x = true := by
  rw [acc_enum, forall_has (P := fun v => ∃ vs, v = .list vs ∧ ∃ y ∈ vs, veq E.p y x = true) h]
  simp only [Val.list.injEq, exists_eq_left']

theorem veq_str {p : Nat} (w : Bytes) : veq p (.str w) x = true ↔ x = .str w := by
  have h0 : ∀ y : Val, y.ty ≠ .str → cmp p (.str w) y ≠ 0 := by
    intro y hy
    cases y <;> simp [Val.ty] at hy <;> simp [cmp, numLD]
  cases x with
  | str t => simp only [veq, cmp, beq_iff_eq, strCompare_eq_zero, Val.str.injEq]; exact eq_comm
  | _ => simp only [veq, beq_iff_eq, reduceCtorEq, iff_false]; exact h0 _ nofun

theorem veq_null {p : Nat} : veq p .null x = true ↔ x = .null := by
  cases x <;> simp [veq, cmp, numLD]

theorem acc_actions : Acc (V E dep actionSchema x) ↔ dep ≤ 99 ∧ IsAction x := by
  unfold actionSchema
  rw [accV_map]; unfold body
  rw [noRef (by rfl), noType (by rfl), noNumeric (by rfl), noString (by rfl), noArray (by rfl), noObject (by rfl), noCombinations (by rfl)]
  simp only [acc_seq, acc_ok, and_true, true_and]
  rw [acc_enumOf rfl]
  refine and_congr_right fun _ => ?_
  constructor
  · rintro ⟨y, hy, h⟩
    obtain ⟨w, h1, rfl⟩ := List.mem_map.1 hy
    exact ⟨w, (veq_str w).1 h, h1⟩
  · rintro ⟨w, h2, h1⟩
    exact ⟨.str w, List.mem_map_of_mem h1, (veq_str w).2 h2⟩

theorem acc_types : Acc (V E dep typeSchema x) ↔ dep ≤ 99 ∧ IsType x := by
  unfold typeSchema
  rw [accV_map]; unfold body
  rw [noRef (by rfl), noType (by rfl), noNumeric (by rfl), noString (by rfl), noArray (by rfl), noObject (by rfl), noCombinations (by rfl)]
  simp only [acc_seq, acc_ok, and_true, true_and]
  rw [acc_enumOf rfl]
  refine and_congr_right fun _ => ?_
  simp only [List.mem_cons, List.not_mem_nil, or_false, exists_eq_or_imp, exists_eq_left, veq_str, veq_null]
  unfold IsType
  simp only [List.mem_cons, List.not_mem_nil, or_false]
  constructor
  · rintro (h | h | h | h | h | h)
    any_goals exact .inr ⟨_, h, by simp⟩
    exact .inl h
  · rintro (h | ⟨w, rfl, h⟩)
    · simp [h]
    · rcases h with rfl | rfl | rfl | rfl | rfl <;> simp

theorem acc_choice (hp : 64 ≤ E.p) : Acc (V E dep choiceSchema x) ↔ dep ≤ 99 ∧ IsChoice x := by
  unfold choiceSchema
  rw [accV_map]; unfold body
  rw [noRef (by rfl), noEnum (by rfl), noNumeric (by rfl), noString (by rfl), noArray (by rfl), noObject (by rfl), noCombinations (by rfl)]
  simp only [acc_seq, acc_ok, and_true, true_and]
  refine and_congr_right fun _ => ?_
  have e : vType E [(kType, .list [.str wBoolean, .str wInteger, .str wNumber, .str wString])] x =
      typeLoop E x [.str wBoolean, .str wInteger, .str wNumber, .str wString] := rfl
  rw [e]
  have hb : hasType E x (.str wBoolean) = some (x.ty == .bool) := rfl
  have hi : ∃ b, hasType E x (.str wInteger) = some b := ⟨_, rfl⟩
  have hnum : hasType E x (.str wNumber) = some (isNumber x) := rfl
  have hs : hasType E x (.str wString) = some (x.ty == .str) := rfl
  have hin : hasType E x (.str wInteger) = some true → isNumber x = true := by
    rw [is_integer hp]
    rintro ((h | h) | h)
    · cases x <;> simp [Val.ty] at h; rfl
    · cases x <;> simp [Val.ty] at h; rfl
    · cases x <;> simp [Val.ty] at h; rfl
  obtain ⟨b, hi⟩ := hi
  rw [hi] at hin
  have four : ∀ b1 b2 b3 b4, hasType E x (.str wBoolean) = some b1 → hasType E x (.str wInteger) = some b2 → hasType E x (.str wNumber) = some b3 →
      hasType E x (.str wString) = some b4 →
      (Acc (typeLoop E x [.str wBoolean, .str wInteger, .str wNumber, .str wString]) ↔ b1 = true ∨ b2 = true ∨ b3 = true ∨ b4 = true) := by
    intro b1 b2 b3 b4 h1 h2 h3 h4
    simp only [typeLoop, h1, h2, h3, h4]
    cases b1 <;> cases b2 <;> cases b3 <;> cases b4 <;> simp
  rw [four _ _ _ _ hb hi hnum hs]
  unfold IsChoice IsFlag IsText
  cases x <;> cases b <;> simp [Val.ty, isNumber] at hin ⊢

theorem acc_choiceList (hp : 64 ≤ E.p) (hd : dep ≤ 98) : Acc (V E dep choicesSchema x) ↔ SetOf E IsChoice x := by
  unfold choicesSchema
  rw [accV_map]; unfold body
  rw [noRef (by rfl), noEnum (by rfl), noNumeric (by rfl), noString (by rfl), noObject (by rfl), noCombinations (by rfl)]
  simp only [acc_seq, acc_ok, and_true, true_and]
  rw [acc_vType rfl, is_array]
  have key : ∀ xs, Acc (vArray E (V E (dep + 1)) [(kItems, choiceSchema), (kMinItems, .uint 1), (kType, .str wArray), (kUniqueItems, .bool true)] (.list xs)) ↔
      xs.length % 2 ^ 32 ≠ 0 ∧ (∀ y ∈ xs, IsChoice y) ∧ Distinct E xs := by
    intro xs
    show Acc (seq _ (seq _ _)) ↔ _
    rw [acc_seq, acc_seq, acc_min1 rfl rfl, acc_uniqueOf rfl, acc_itemsOf rfl]
    have : ∀ y, Acc (V E (dep + 1) (.map [(kType, .list [.str wBoolean, .str wInteger, .str wNumber, .str wString])]) y) ↔ IsChoice y := fun y => by
      have := acc_choice (E := E) (dep := dep + 1) (x := y) hp
      unfold choiceSchema at this
      rw [this]; exact and_iff_right (by omega)
    simp only [this]
    exact ⟨fun ⟨a, b, c⟩ => ⟨a, c, b⟩, fun ⟨a, b, c⟩ => ⟨a, c, b⟩⟩
  constructor
  · rintro ⟨_, ⟨xs, rfl⟩, h⟩; exact ⟨xs, rfl, (key xs).1 h⟩
  · rintro ⟨xs, rfl, h⟩; exact ⟨by omega, ⟨xs, rfl⟩, (key xs).2 h⟩

theorem acc_short (hd : dep ≤ 99) : Acc (V E dep shortSchema x) ↔ IsChar x := by
  unfold shortSchema
  rw [accV_map]; unfold body
  rw [noRef (by rfl), noEnum (by rfl), noNumeric (by rfl), noArray (by rfl), noObject (by rfl), noCombinations (by rfl)]
  simp only [acc_seq, acc_ok, and_true, true_and]
  rw [acc_vType rfl, is_string]
  have key : ∀ t : Bytes, Acc (vString E [(kMaxLength, .uint 1), (kMinLength, .uint 1), (kType, .str wString)] (.str t)) ↔ t.length % 2 ^ 32 = 1 := by
    intro t
    have e : vString E [(kMaxLength, .uint 1), (kMinLength, .uint 1), (kType, .str wString)] (.str t) =
        seq (seq (if decide (t.length % 2 ^ 32 < 1) = true then err else ok) (if decide (t.length % 2 ^ 32 > 1) = true then err else ok)) (seq ok ok) := rfl
    rw [e]
    simp only [acc_seq, acc_ok, and_true, acc_ite, acc_err, decide_eq_true_eq]
    generalize t.length % 2 ^ 32 = n
    simp only [imp_false, implies_true, and_true]
    omega
  constructor
  · rintro ⟨_, ⟨t, rfl⟩, h⟩; exact ⟨t, rfl, (key t).1 h⟩
  · rintro ⟨t, rfl, h⟩; exact ⟨hd, ⟨t, rfl⟩, (key t).2 h⟩

theorem acc_text (hd : dep ≤ 99) : Acc (V E dep (typed wString) x) ↔ IsText x := by
  rw [acc_typed, is_string]; exact and_iff_right hd
theorem acc_bool (hd : dep ≤ 99) : Acc (V E dep (typed wBoolean) x) ↔ IsFlag x := by
  rw [acc_typed, is_boolean]; exact and_iff_right hd
theorem acc_num (hd : dep ≤ 99) : Acc (V E dep (typed wNumber) x) ↔ isNumber x = true := by
  rw [acc_typed, is_number]; exact and_iff_right hd
theorem acc_fl (hd : dep ≤ 99) : Acc (V E dep flag x) ↔ IsFlag x := by
  rw [acc_flag]; exact and_iff_right hd
theorem acc_sz (hp : 64 ≤ E.p) (hd : dep ≤ 99) : Acc (V E dep positiveInteger x) ↔ IsSize x := by
  rw [acc_positiveInteger hp]; exact and_iff_right hd
theorem acc_re (hd : dep ≤ 99) : Acc (V E dep regexText x) ↔ IsRegex E x := by
  rw [acc_regexText]; exact and_iff_right hd
theorem acc_any (hd : dep ≤ 99) : Acc (V E dep (.map []) x) ↔ True := by
  rw [acc_anything rfl rfl rfl rfl rfl rfl]; simp [hd]

theorem acc_base (hp : 64 ≤ E.p) (H : HasArgs E) (hd : dep ≤ 90) : Acc (V E dep baseSchema (.map dm)) ↔ EntryOk E dm := by
  unfold baseSchema
  rw [accV_map]; unfold body
  rw [noRef (by rfl), noType (by rfl), noEnum (by rfl), noNumeric (by rfl), noString (by rfl), noArray (by rfl), noCombinations (by rfl)]
  simp only [acc_seq, acc_ok, and_true, true_and]
  rw [acc_vObject rfl rfl, acc_needs (ks := [kTitle, kDescription, kAction]) rfl, keys_iff (fs := entryForms E) (by decide)]
  · simp only [List.mem_cons, List.not_mem_nil, or_false, forall_eq_or_imp, forall_eq]
    exact ⟨fun ⟨_, ⟨a, b, c⟩, k⟩ => ⟨k, a, b, c⟩, fun ⟨k, a, b, c⟩ => ⟨by omega, ⟨a, b, c⟩, k⟩⟩
  · unfold baseProperties entryForms
    refine .cons (fun v => ?_) <| .cons (fun v => acc_fl (by omega)) <| .cons (fun v => acc_any (by omega)) <| .cons (fun v => acc_any (by omega)) <|
      .cons (fun v => acc_text (by omega)) <| .cons (fun v => acc_choiceList hp (by omega)) <| .cons (fun v => acc_sz hp (by omega)) <|
      .cons (fun v => acc_sz hp (by omega)) <| .cons (fun v => acc_num (by omega)) <| .cons (fun v => acc_sz hp (by omega)) <|
      .cons (fun v => acc_sz hp (by omega)) <| .cons (fun v => acc_num (by omega)) <| .cons (fun v => acc_re (by omega)) <|
      .cons (fun v => acc_fl (by omega)) <| .cons (fun v => acc_text (by omega)) <| .cons (fun v => ?_) .nil
    · rw [acc_refTo H.actions, acc_actions]
      exact ⟨fun ⟨_, _, h⟩ => h, fun h => ⟨by omega, by omega, h⟩⟩
    · rw [acc_refTo H.types, acc_types]
      exact ⟨fun ⟨_, _, h⟩ => h, fun h => ⟨by omega, by omega, h⟩⟩

end Verif.Args
