import Verif.Schema.MetaProps
import Verif.Schema.MetaParsed
/-!
# C101-C102: examples, and what the schema of schemas does not see
-/

namespace Verif.Schema
open Verif Loader

variable {E : Env}

theorem forms_keys {S : Val → Prop} : (forms E S).map Prod.fst = (metaProperties metaUri).map Prod.fst := rfl

theorem keys_nodup : ((metaProperties metaUri).map Prod.fst).Nodup := by decide +kernel

/-- Each keyword has one meaning. -/
theorem forms_unique {S : Val → Prop} {k : Bytes} {P Q : Val → Prop} (h : (k, P) ∈ forms E S) (h' : (k, Q) ∈ forms E S) : P = Q := by
  have hn : ((forms E S).map Prod.fst).Nodup := by rw [forms_keys]; exact keys_nodup
  generalize forms E S = f at h h' hn
  induction f with
  | nil => cases h
  | cons e f ih =>
    simp only [List.map_cons, List.nodup_cons] at hn
    simp only [List.mem_cons] at h h'
    rcases h with h | h
    · rcases h' with h' | h'
      · rw [← h] at h'; cases h'; rfl
      · exact absurd (List.mem_map_of_mem (f := Prod.fst) h') (by rw [← h] at hn; exact hn.1)
    · rcases h' with h' | h'
      · exact absurd (List.mem_map_of_mem (f := Prod.fst) h) (by rw [← h'] at hn; exact hn.1)
      · exact ih h h' hn.2

/-- Checking a schema entry by entry. -/
theorem form_of {S : Val → Prop} {m : List (Bytes × Val)} (h : ∀ e ∈ m, (∃ P, (e.1, P) ∈ forms E S ∧ P e.2) ∨ ∀ P, (e.1, P) ∉ forms E S)
    (h1 : (AMap.get m kExclusiveMaximum).isSome = true → (AMap.get m kMaximum).isSome = true)
    (h2 : (AMap.get m kExclusiveMinimum).isSome = true → (AMap.get m kMinimum).isSome = true) : Form E S m := by
  refine ⟨fun k P hk v hv => ?_, h1, h2⟩
  rcases h (k, v) hv with ⟨Q, hQ, hv⟩ | h
  · rw [forms_unique hk hQ]; exact hv
  · exact absurd hk (h P)

theorem form_at {S : Val → Prop} {k : Bytes} {v : Val} {P : Val → Prop} (i : Nat) (hi : (forms E S)[i]? = some (k, P)) (h : P v) :
    (∃ P, (k, P) ∈ forms E S ∧ P v) ∨ ∀ P, (k, P) ∉ forms E S := .inl ⟨P, List.mem_of_getElem? hi, h⟩

theorem form_other {S : Val → Prop} {k : Bytes} {v : Val} (hk : ((metaProperties metaUri).map Prod.fst).contains k = false) :
    (∃ P, (k, P) ∈ forms E S ∧ P v) ∨ ∀ P, (k, P) ∉ forms E S := by
  refine .inr fun P h => ?_
  have : k ∈ (forms E S).map Prod.fst := List.mem_map_of_mem (f := Prod.fst) h
  rw [forms_keys] at this
  rw [← List.contains_iff_mem] at this
  rw [this] at hk; cases hk

theorem empty_proper (n : Nat) : Proper E (n + 1) (.map []) := ⟨[], rfl, form_of nofun nofun nofun⟩

/-- C101.  `metaEntry` is what the text in the source (src/json-schema-v4.cc) gives, whatever the platform's floating point
numbers. -/
theorem entry_from_text (fo : JsonDrv.FloatOps) : schemaStaticData fo = .ok metaEntry := static_data fo

/-! ## Examples -/

/-- `{"minimum": 0, "type": "integer"}` -/
def exInner : Val := .map [(kMinimum, .uint 0), (kType, .str wInteger)]
/-- `{"properties": {"a": …}, "required": ["a"], "type": "object"}` -/
def exSchema : Val := .map [(kProperties, .map [([97], exInner)]), (kRequired, .list [.str [97]]), (kType, .str wObject)]

theorem exInner_proper (n : Nat) : Proper E (n + 1) exInner := by
  refine ⟨_, rfl, form_of ?_ nofun nofun⟩
  intro e he
  simp only [List.mem_cons, List.not_mem_nil, or_false] at he
  rcases he with rfl | rfl
  · exact form_at 21 rfl rfl
  · exact form_at 30 rfl (.inl ⟨_, rfl, by simp⟩)

theorem exSchema_proper : Proper E 2 exSchema := by
  refine ⟨_, rfl, form_of ?_ nofun nofun⟩
  intro e he
  simp only [List.mem_cons, List.not_mem_nil, or_false] at he
  rcases he with rfl | rfl | rfl
  · refine form_at 27 rfl ⟨_, rfl, fun k x hx => ?_⟩
    simp only [List.mem_cons, List.not_mem_nil, or_false, Prod.mk.injEq] at hx
    rw [hx.2]; exact exInner_proper 0
  · refine form_at 28 rfl ⟨_, rfl, by decide, fun x hx => ?_, fun i j x y hij hx hy => ?_⟩
    · simp only [List.mem_cons, List.not_mem_nil, or_false] at hx
      exact ⟨_, hx⟩
    · match i, j with
      | _, 0 => omega
      | _, j + 1 => simp at hy
  · exact form_at 30 rfl (.inl ⟨_, rfl, by simp⟩)

theorem checked_of {m : List (Bytes × Val)} (h : none' m [kRef, kDivisibleBy, kPatternProperties, kMinItems, kMaxItems, kMinLength, kMaxLength, kMinProperties, kMaxProperties, kFormat] = true) :
    Checked E m := by
  have no : ∀ {k : Bytes} {v : Val}, k ∈ [kRef, kDivisibleBy, kPatternProperties, kMinItems, kMaxItems, kMinLength, kMaxLength, kMinProperties, kMaxProperties, kFormat] → ¬ has m k v := by
    intro k v hk hv
    unfold has at hv
    rw [none'_get h hk] at hv; cases hv
  refine ⟨fun r hr => no (by simp) hr, fun q hq => absurd hq (no (by simp)), fun ps q s hp => absurd hp (no (by simp)), fun k l hk hl => ?_, fun w re _ hf => absurd hf (no (by simp))⟩
  refine absurd hl (no ?_)
  simp only [List.mem_cons, List.not_mem_nil, or_false] at hk
  rcases hk with rfl | rfl | rfl | rfl | rfl | rfl <;> simp

theorem exInner_part {t : Val} (h : Part exInner t) : t = exInner := by
  unfold exInner at h ⊢
  cases h with
  | self => rfl
  | one hk hh _ =>
    simp only [List.mem_cons, List.not_mem_nil, or_false] at hk
    rcases hk with rfl | rfl | rfl | rfl <;> cases hh
  | list hk hh _ =>
    simp only [List.mem_cons, List.not_mem_nil, or_false] at hk
    rcases hk with rfl | rfl | rfl | rfl <;> cases hh
  | map hk hh _ =>
    simp only [List.mem_cons, List.not_mem_nil, or_false] at hk
    rcases hk with rfl | rfl | rfl <;> cases hh

theorem exSchema_part {t : Val} (h : Part exSchema t) : t = exSchema ∨ t = exInner := by
  unfold exSchema at h ⊢
  cases h with
  | self => exact .inl rfl
  | one hk hh _ =>
    simp only [List.mem_cons, List.not_mem_nil, or_false] at hk
    rcases hk with rfl | rfl | rfl | rfl <;> cases hh
  | list hk hh _ =>
    simp only [List.mem_cons, List.not_mem_nil, or_false] at hk
    rcases hk with rfl | rfl | rfl | rfl <;> cases hh
  | map hk hh hm hp =>
    simp only [List.mem_cons, List.not_mem_nil, or_false] at hk
    rcases hk with rfl | rfl | rfl <;> cases hh
    simp only [List.mem_cons, List.not_mem_nil, or_false, Prod.mk.injEq] at hm
    rw [hm.2] at hp
    exact .inr (exInner_part hp)

/-- `{"properties": {"a": {"minimum": 0, "type": "integer"}}, "required": ["a"], "type": "object"}` passes, and works. -/
example (hp : 64 ≤ E.p) (bases : List Layer) (d : Val) :
    schemaValidate E metaEntry bases metaName exSchema = some (.ok ⟨false, false⟩) ∧
    ∃ e, schemaValidate E metaEntry bases exSchema d = some (.ok ⟨e, false⟩) := by
  have h := proper_accepted_partial (bases := bases) hp (by decide) exSchema_proper
  refine ⟨h, accepted_works_partial hp h (fun m hm => ?_) bases d⟩
  rcases exSchema_part hm with h | h <;> cases h <;> exact checked_of rfl

/-- `{"type": "animal"}` does not pass. -/
example (hp : 64 ≤ E.p) (bases : List Layer) (w : Bytes) (hw : w ∉ [wArray, wBoolean, wInteger, wNull, wNumber, wObject, wString]) :
    schemaValidate E metaEntry bases metaName (.map [(kType, .str w)]) ≠ some (.ok ⟨false, false⟩) := by
  intro h
  obtain ⟨n, _, h⟩ := accepted_proper hp h
  cases n with
  | zero => exact h
  | succ n =>
    obtain ⟨m, e, F⟩ := h
    cases e
    rcases F.keys kType _ (List.mem_of_getElem? (i := 30) rfl) (.str w) (.head _) with ⟨w', e, h⟩ | ⟨_, e, _⟩
    · cases e; exact hw h
    · cases e

/-- Without a schema, `{"$schema": "http://json-schema.org/draft-04/schema#", "type": "integer"}` is checked against the schema it
names and passes; with a type nobody knows it does not. -/
example (hp : 64 ≤ E.p) (bases : List Layer) (w : Bytes) (hw : w ∉ [wArray, wBoolean, wInteger, wNull, wNumber, wObject, wString]) :
    schemaValidate E metaEntry bases .null (.map [(kSchema, metaName), (kType, .str wInteger)]) = some (.ok ⟨false, false⟩) ∧
    schemaValidate E metaEntry bases .null (.map [(kSchema, metaName), (kType, .str w)]) ≠ some (.ok ⟨false, false⟩) := by
  constructor
  · refine proper_named_partial hp (n := 1) (by decide) rfl ⟨_, rfl, form_of ?_ nofun nofun⟩
    intro e he
    simp only [List.mem_cons, List.not_mem_nil, or_false] at he
    rcases he with rfl | rfl
    · exact form_at 0 rfl ⟨_, rfl⟩
    · exact form_at 30 rfl (.inl ⟨_, rfl, by simp⟩)
  · intro h
    obtain ⟨n, _, h⟩ := named_proper hp rfl h
    cases n with
    | zero => exact h
    | succ n =>
      obtain ⟨m, e, F⟩ := h
      cases e
      rcases F.keys kType _ (List.mem_of_getElem? (i := 30) rfl) (.str w) (.tail _ (.head _)) with ⟨w', e, h⟩ | ⟨_, e, _⟩
      · cases e; exact hw h
      · cases e

/-! ## Depth -/

/-- `{"not": {"not": … {}}}` -/
def nots : Nat → Val
  | 0 => .map []
  | n + 1 => .map [(kNot, nots n)]

theorem nots_proper : ∀ n, Proper E (n + 1) (nots n)
  | 0 => empty_proper 0
  | n + 1 => by
    refine ⟨_, rfl, form_of ?_ nofun nofun⟩
    intro e he
    simp only [List.mem_cons, List.not_mem_nil, or_false] at he
    subst he
    exact form_at 23 rfl (nots_proper n)

theorem proper_nots : ∀ n k, Proper E n (nots k) → k < n
  | n + 1, 0, _ => by omega
  | n + 1, k + 1, ⟨m, e, F⟩ => by
    cases e
    have := proper_nots n k (F.keys kNot _ (List.mem_of_getElem? (i := 23) rfl) (nots k) (.head _))
    omega

/-- C101.  Not every schema passes: `{"not": {"not": …}}`, nested 52 deep, does not, whatever the platform. -/
theorem deep_schema_false (hp : 64 ≤ E.p) (bases : List Layer) :
    Proper E 52 (nots 51) ∧ schemaValidate E metaEntry bases metaName (nots 51) ≠ some (.ok ⟨false, false⟩) := by
  refine ⟨nots_proper 51, fun h => ?_⟩
  obtain ⟨n, hn, h⟩ := accepted_proper hp h
  have := proper_nots n 51 h
  omega

/-! ## What the schema of schemas does not see -/

theorem own_run {E : Env} {bases : List Layer} {m m' : List (Bytes × Val)} {d : Val} (h : norm [] (.map m) = .map m') :
    schemaValidate E metaEntry bases (.map m) d =
      outcome (body { E with loader := lookup E.p metaEntry bases (.map m) } (V { E with loader := lookup E.p metaEntry bases (.map m) } 1) m' d) := by
  have hch : chosenSchema E.p metaEntry bases (.map m) d = .ok (.map m) := by
    have : namedSchema (.map m) d = .map m := by cases d <;> rfl
    unfold chosenSchema
    rw [this]
  unfold schemaValidate
  rw [hch]
  simp only [h]
  exact congrArg outcome (V_map (dep := 0) (by decide))

/-- C102.  A reference to a schema nobody has: the schema passes, and validating with it throws. -/
theorem dangling_reference_false (hp : 64 ≤ E.p) (d : Val) :
    schemaValidate E metaEntry [] metaName (.map [(kRef, .str [120])]) = some (.ok ⟨false, false⟩) ∧
    schemaValidate E metaEntry [] (.map [(kRef, .str [120])]) d = some (.throw .runtime) := by
  refine ⟨proper_accepted_partial hp (n := 1) (by decide) ⟨_, rfl, form_of ?_ nofun nofun⟩, ?_⟩
  · intro e he
    simp only [List.mem_cons, List.not_mem_nil, or_false] at he
    subst he
    exact form_other (by decide +kernel)
  · rw [own_run (m' := [(kRef, .str [120])]) (by rfl)]
    have hl : lookup E.p metaEntry [] (.map [(kRef, .str [120])]) [120] = .throw .runtime := by rfl
    unfold body
    have e : ∀ l rec, l [120] = .throw .runtime → vRef { E with loader := l } rec [(kRef, .str [120])] d = some (.exn .runtime) := by
      intro l rec hl
      show withOut (l [120]) _ = _
      rw [hl]; rfl
    rw [e _ _ hl]; rfl

/-- C102.  `{"divisibleBy": 0}` passes, and validating an integer with it divides by 0. -/
theorem divisibleBy_zero_false (hp : 64 ≤ E.p) (bases : List Layer) :
    schemaValidate E metaEntry bases metaName (.map [(kDivisibleBy, .int 0)]) = some (.ok ⟨false, false⟩) ∧
    schemaValidate E metaEntry bases (.map [(kDivisibleBy, .int 0)]) (.int 1) = some .ub := by
  refine ⟨proper_accepted_partial hp (n := 1) (by decide) ⟨_, rfl, form_of ?_ nofun nofun⟩, ?_⟩
  · intro e he
    simp only [List.mem_cons, List.not_mem_nil, or_false] at he
    subst he
    exact form_other (by decide +kernel)
  · rw [own_run (m' := [(kDivisibleBy, .int 0)]) (by rfl)]
    unfold body
    rw [noRef (by rfl), noType (by rfl), noEnum (by rfl)]
    have e : ∀ l, vNumeric { E with loader := l } [(kDivisibleBy, .int 0)] (.int 1) = some .ub := by
      intro l
      have h0 : cmp E.p (.int 0) (.int 0) = 0 := by rw [cmp_value hp zero_value zero_value]; rfl
      have : vMultipleOf { E with loader := l } [(kDivisibleBy, .int 0)] (.int 1) = some .ub := by
        unfold vMultipleOf
        rw [show (AMap.get [(kDivisibleBy, Val.int 0)] kMultipleOf).or (AMap.get [(kDivisibleBy, Val.int 0)] kDivisibleBy) = some (.int 0) from rfl]
        simp only [h0]
        rw [if_neg (by decide), if_neg (by decide)]
        rfl
      unfold vNumeric
      rw [if_pos (show isNumber (.int 1) = true from rfl), this]; rfl
    rw [e]; rfl

/-- C102.  A name in "patternProperties" that is not a regular expression: the schema passes, and validating an object
with it reports an error in the schema. -/
theorem bad_pattern_false (hp : 64 ≤ E.p) (bases : List Layer) (hr : E.regex [91] = none) :
    schemaValidate E metaEntry bases metaName (.map [(kPatternProperties, .map [([91], .map [])])]) = some (.ok ⟨false, false⟩) ∧
    schemaValidate E metaEntry bases (.map [(kPatternProperties, .map [([91], .map [])])]) (.map []) = some (.ok ⟨false, true⟩) := by
  refine ⟨proper_accepted_partial hp (n := 2) (by decide) ⟨_, rfl, form_of ?_ nofun nofun⟩, ?_⟩
  · intro e he
    simp only [List.mem_cons, List.not_mem_nil, or_false] at he
    subst he
    refine form_at 26 rfl ⟨_, rfl, fun k x hx => ?_⟩
    simp only [List.mem_cons, List.not_mem_nil, or_false, Prod.mk.injEq] at hx
    rw [hx.2]; exact empty_proper 0
  · rw [own_run (m' := [(kPatternProperties, .map [([91], .map [])])]) (by rfl)]
    unfold body
    rw [noRef (by rfl), noType (by rfl), noEnum (by rfl), noNumeric (by rfl), noString (by rfl), noArray (by rfl), noCombinations (by rfl)]
    have e : ∀ l rec, vObject { E with loader := l } rec [(kPatternProperties, .map [([91], .map [])])] (.map []) = serr := by
      intro l rec
      show seq ok (seq ok (seq (seq (some (.go (!(compile { E with loader := l } [([91], .map [])]).2))) ok) ok)) = serr
      have : compile { E with loader := l } [([91], .map [])] = ([], false) := by
        show (match E.regex [91] with | some f => _ | none => _) = _
        rw [hr]
      rw [this]; rfl
    rw [e]; rfl

/-- C102.  `{"minLength": 18446744073709551616}` (read as a floating point number) passes, and validating a string with it
converts a number beyond the range of the type. -/
theorem huge_size_false (hp : 64 ≤ E.p) (bases : List Layer) :
    schemaValidate E metaEntry bases metaName (.map [(kMinLength, .flt 0x43F0000000000000)]) = some (.ok ⟨false, false⟩) ∧
    schemaValidate E metaEntry bases (.map [(kMinLength, .flt 0x43F0000000000000)]) (.str []) = some .ub := by
  have hl : LD.ofDouble 0x43F0000000000000 = .fin (2 ^ 64 * 2 ^ 1074) := by decide +kernel
  refine ⟨proper_accepted_partial hp (n := 1) (by decide) ⟨_, rfl, form_of ?_ nofun nofun⟩, ?_⟩
  · intro e he
    simp only [List.mem_cons, List.not_mem_nil, or_false] at he
    subst he
    refine form_at 19 rfl (.inl ⟨2 ^ 64 * 2 ^ 1074, by simp only [value, hl], by decide +kernel, ⟨2 ^ 64, by decide +kernel⟩⟩)
  · rw [own_run (m' := [(kMinLength, .flt 0x43F0000000000000)]) (by rfl)]
    unfold body
    rw [noRef (by rfl), noType (by rfl), noEnum (by rfl), noNumeric (by rfl)]
    have e : ∀ l, vString { E with loader := l } [(kMinLength, .flt 0x43F0000000000000)] (.str []) = some .ub := by
      intro l
      have h1 : asUnsignedNum (.flt 0x43F0000000000000) = .ub := by decide +kernel
      have h2 : ∀ bad, sizeLimit [(kMinLength, .flt 0x43F0000000000000)] kMinLength bad = some .ub := by
        intro bad
        unfold sizeLimit
        rw [kw_some (w := .flt 0x43F0000000000000) (by rfl), if_pos (show isNumber (.flt 0x43F0000000000000) = true from rfl), h1]; rfl
      unfold vString vStringLength
      simp only [h2]
      rfl
    rw [e]; rfl

end Verif.Schema
