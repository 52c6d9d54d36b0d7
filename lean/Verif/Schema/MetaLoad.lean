import Verif.Schema.Whole
import Verif.Schema.MetaAccept
import Verif.Schema.Calm
import Verif.Loader.Props
/-!
# The schema of schemas in a loader
-/

namespace Verif.Schema
open Verif Loader

/-! ## The references of the schema of schemas -/

theorem meta_known (s : Val) : AMap.get (localLayer metaEntry s).schemas metaUri = some (metaSchema metaUri) :=
  add_keeps _ _ _ _ _ rfl

theorem meta_only (s : Val) (frag : Bytes) : AMap.get (localLayer metaEntry s).schemas (metaUri ++ 35 :: frag) = none := by
  cases h : AMap.get (localLayer metaEntry s).schemas (metaUri ++ 35 :: frag) with
  | none => rfl
  | some x =>
    have hn : AMap.get [metaEntry] (metaUri ++ 35 :: frag) = none := by
      have : metaUri ++ 35 :: frag ≠ metaUri := fun e => by
        have := congrArg List.length e
        simp at this
      simp [metaEntry, AMap.get]
    have h1 := (add_only_own _ _ _ _ _ hn h).1
    rw [resolve_nil] at h1
    rcases h1 with h1 | ⟨rest, h1, h2⟩
    · simp [metaUri] at h1
    · rw [List.nil_append] at h1
      subst h1
      rcases h2 with h2 | h2 | h2 <;> simp [metaUri] at h2

theorem meta_lookup (p : Nat) (bases : List Layer) (s : Val) (frag : Bytes) :
    lookup p metaEntry bases s (metaUri ++ 35 :: frag) = inside p (metaSchema metaUri) frag := by
  unfold lookup getSchema
  rw [meta_only, splitUri_hash (by decide)]
  simp only [meta_known]

theorem meta_lookup' (p : Nat) (bases : List Layer) (frag : Bytes) :
    (getSchema p (⟨[metaEntry], none⟩ :: bases) (metaUri ++ 35 :: frag)).2 = inside p (metaSchema metaUri) frag := by
  unfold getSchema
  have : AMap.get [metaEntry] (metaUri ++ 35 :: frag) = none := by
    simp [metaEntry, AMap.get]
  rw [this, splitUri_hash (by decide)]
  simp only [show AMap.get [metaEntry] metaUri = some (metaSchema metaUri) from rfl]

theorem unescape_plain : ∀ {s : Bytes}, (∀ c ∈ s, c ≠ 37) → Uri.unescapeURI s = .ok s
  | [], _ => by rw [Uri.unescapeURI]
  | c :: s, h => by
    rw [Uri.unescapeURI]
    simp [h c (.head _), unescape_plain fun x hx => h x (.tail _ hx)]

theorem inside_definitions (p : Nat) : ∀ e ∈ metaDefinitions metaUri, inside p (metaSchema metaUri) (inDefinitions ++ e.1) = .ok e.2 := by
  intro e he
  unfold metaDefinitions at he
  simp only [List.mem_cons, List.not_mem_nil, or_false] at he
  unfold inside
  rcases he with rfl | rfl | rfl | rfl | rfl
  all_goals
    rw [unescape_plain (by decide)]
    rfl

theorem has_meta (E : Env) (bases : List Layer) (s : Val) : HasMeta { E with loader := lookup E.p metaEntry bases s } where
  whole := (meta_lookup _ _ _ _).trans (inside_nil _ _)
  positiveInteger := (meta_lookup _ _ _ _).trans (inside_definitions _ (_, _) (.head _))
  positiveIntegerDefault0 := (meta_lookup _ _ _ _).trans (inside_definitions _ (_, _) (.tail _ (.head _)))
  schemaArray := (meta_lookup _ _ _ _).trans (inside_definitions _ (_, _) (.tail _ (.tail _ (.head _))))
  simpleTypes := (meta_lookup _ _ _ _).trans (inside_definitions _ (_, _) (.tail _ (.tail _ (.tail _ (.head _)))))
  stringArray := (meta_lookup _ _ _ _).trans (inside_definitions _ (_, _) (.tail _ (.tail _ (.tail _ (.tail _ (.head _))))))

theorem meta_normed_again : norm [] (metaSchema metaUri) = metaSchema metaUri := same_eq (by decide +kernel)

/-- What validating with the schema of schemas does. -/
theorem meta_run (E : Env) (bases : List Layer) (d : Val) : schemaValidate E metaEntry bases metaName d =
    outcome (V { E with loader := lookup E.p metaEntry bases (metaSchema metaUri) } 0 (metaSchema metaUri) d) := by
  have h : chosenSchema E.p metaEntry bases metaName d = .ok (metaSchema metaUri) := by
    have : namedSchema metaName d = .str (metaUri ++ [35]) := rfl
    unfold chosenSchema
    rw [this]
    exact (meta_lookup' _ _ _).trans (inside_nil _ _)
  unfold schemaValidate
  rw [h]
  simp only [meta_normed_again]
  rfl

/-! ## The validator understands the schema of schemas -/

/-- The schemas in the schema of schemas. -/
def metaParts : List Val :=
  [metaSchema metaUri, .map [], .map [(kDefault, .uint 0)], refTo metaUri [], refTo metaUri (inDefinitions ++ nPositiveInteger),
   refTo metaUri (inDefinitions ++ nPositiveIntegerDefault0), refTo metaUri (inDefinitions ++ nSchemaArray),
   refTo metaUri (inDefinitions ++ nSimpleTypes), refTo metaUri (inDefinitions ++ nStringArray),
   positiveInteger, positiveIntegerDefault0 metaUri, schemaArray metaUri, simpleTypes, stringArray, uriText, typed wString, typed wNumber,
   typed wBoolean, flag, regexText, positiveNumber, flagOrSchema metaUri, schemaOrSchemas metaUri, schemasByName metaUri, dependency metaUri,
   dependenciesByName metaUri, choices, typeList metaUri, typeOrTypes metaUri]

section
variable {m : List (Bytes × Val)} {P : Val → Prop}
theorem vac {k : Bytes} (h : AMap.get m k = none) : ∀ v, has m k v → P v := fun v hv => by unfold has at hv; rw [h] at hv; cases hv
theorem vacs {ks : List Bytes} {P : Bytes → Val → Prop} (h : none' m ks = true) : ∀ k v, k ∈ ks → has m k v → P k v :=
  fun k v hk hv => by unfold has at hv; rw [none'_get h hk] at hv; cases hv
theorem vacStr {k : Bytes} {P : Bytes → Prop} (h : AMap.get m k = none) : ∀ v, has m k (.str v) → P v := fun v hv => by unfold has at hv; rw [h] at hv; cases hv
theorem vacFormat {fs : List (Bytes × Bytes)} {P : Bytes → Bytes → Prop} (h : AMap.get m kFormat = none) :
    ∀ w re, (w, re) ∈ fs → has m kFormat (.str w) → P w re := fun v _ _ hv => by unfold has at hv; rw [h] at hv; cases hv
theorem vacDivisor (h : none' m [kMultipleOf, kDivisibleBy] = true) : ∀ q, divisor m q → P q := fun q hq => by
  unfold divisor has at hq
  rw [none'_get h (by simp), none'_get h (by simp)] at hq
  simp at hq
theorem vacsOne {ks : List Bytes} {P : Bytes → Val → Prop} (k0 : Bytes) {w : Val} (h : AMap.get m k0 = some w)
    (hn : (ks.all fun k => k == k0 || (AMap.get m k).isNone) = true) (hP : P k0 w) : ∀ k v, k ∈ ks → has m k v → P k v := fun k v hk hv => by
  have h1 := List.all_eq_true.1 hn k hk
  unfold has at hv
  simp only [Bool.or_eq_true, beq_iff_eq, Option.isNone_iff_eq_none] at h1
  rcases h1 with rfl | h1
  · rw [h] at hv; cases hv; exact hP
  · rw [h1] at hv; cases hv
end

/-- The keyword is not there. -/
macro "absent" : tactic => `(tactic| first | exact vac rfl | exact vacs rfl | exact vacStr rfl | exact vacFormat rfl | exact vacDivisor rfl)

theorem meta_understood {E : Env} (H : HasMeta E) : ∀ t ∈ metaParts, ∃ m, t = .map m ∧ Understood E (· ∈ metaParts) m := by
  intro t ht
  have ty : ∀ w, w ∈ [wArray, wBoolean, wInteger, wNull, wNumber, wObject, wString] → IsTypeName (.str w) ∨ ∃ ws, Val.str w = .list ws ∧ ∀ w ∈ ws, IsTypeName w :=
    fun w hw => .inl ⟨w, rfl, hw⟩
  have two : ∀ {a b : Val}, a ∈ metaParts → b ∈ metaParts → ∀ s ∈ [a, b], s ∈ metaParts := by
    intro a b ha hb s hs
    simp only [List.mem_cons, List.not_mem_nil, or_false] at hs
    rcases hs with rfl | rfl <;> assumption
  unfold metaParts at ht
  simp only [List.mem_cons, List.not_mem_nil, or_false] at ht
  rcases ht with rfl | rfl | rfl | rfl | rfl | rfl | rfl | rfl | rfl | rfl | rfl | rfl | rfl | rfl | rfl | rfl | rfl | rfl | rfl | rfl |
    rfl | rfl | rfl | rfl | rfl | rfl | rfl | rfl | rfl
  all_goals refine ⟨_, rfl, ?_⟩
  all_goals constructor
  all_goals try absent
  all_goals try exact (forall_has rfl).2 (ty _ (by simp))
  all_goals try exact vacsOne kMinimum rfl rfl rfl
  all_goals try exact vacsOne kMinItems rfl rfl ⟨rfl, 1, rfl⟩
  all_goals try exact vacsOne kExclusiveMinimum rfl rfl ⟨true, rfl⟩
  all_goals try exact vacsOne kAdditionalProperties rfl rfl (.inr (by simp [metaParts]))
  all_goals try exact vacsOne kAllOf rfl rfl ⟨_, rfl, two (by simp [metaParts]) (by simp [metaParts])⟩
  all_goals try exact vacsOne kAnyOf rfl rfl ⟨_, rfl, two (by simp [metaParts]) (by simp [metaParts])⟩
  all_goals try exact (forall_has rfl).2 (.inl ⟨by simp [metaParts], nofun⟩)
  all_goals try exact (forall_has rfl).2 ⟨true, rfl⟩
  all_goals try exact (forall_has rfl).2 ⟨_, rfl⟩
  all_goals try (intro r hr; cases hr; first
    | exact ⟨_, H.whole, by simp [metaParts]⟩
    | exact ⟨_, H.positiveInteger, by simp [metaParts]⟩
    | exact ⟨_, H.positiveIntegerDefault0, by simp [metaParts]⟩
    | exact ⟨_, H.schemaArray, by simp [metaParts]⟩
    | exact ⟨_, H.simpleTypes, by simp [metaParts]⟩
    | exact ⟨_, H.stringArray, by simp [metaParts]⟩)
  · refine (forall_has rfl).2 ⟨_, rfl, fun k x hx => ?_⟩
    unfold metaProperties at hx
    simp only [List.mem_cons, List.not_mem_nil, or_false, Prod.mk.injEq] at hx
    rcases hx with ⟨rfl, rfl⟩ | ⟨rfl, rfl⟩ | ⟨rfl, rfl⟩ | ⟨rfl, rfl⟩ | ⟨rfl, rfl⟩ | ⟨rfl, rfl⟩ | ⟨rfl, rfl⟩ | ⟨rfl, rfl⟩ |
      ⟨rfl, rfl⟩ | ⟨rfl, rfl⟩ | ⟨rfl, rfl⟩ | ⟨rfl, rfl⟩ | ⟨rfl, rfl⟩ | ⟨rfl, rfl⟩ | ⟨rfl, rfl⟩ | ⟨rfl, rfl⟩ |
      ⟨rfl, rfl⟩ | ⟨rfl, rfl⟩ | ⟨rfl, rfl⟩ | ⟨rfl, rfl⟩ | ⟨rfl, rfl⟩ | ⟨rfl, rfl⟩ | ⟨rfl, rfl⟩ | ⟨rfl, rfl⟩ |
      ⟨rfl, rfl⟩ | ⟨rfl, rfl⟩ | ⟨rfl, rfl⟩ | ⟨rfl, rfl⟩ | ⟨rfl, rfl⟩ | ⟨rfl, rfl⟩ | ⟨rfl, rfl⟩ | ⟨rfl, rfl⟩
    all_goals simp only [metaParts, List.mem_cons, true_or, or_true]
  · refine (forall_has rfl).2 ⟨_, rfl, fun k x hx => .inr ?_⟩
    unfold metaDependencies at hx
    simp only [List.mem_cons, List.not_mem_nil, or_false, Prod.mk.injEq] at hx
    rcases hx with ⟨rfl, rfl⟩ | ⟨rfl, rfl⟩
    all_goals
      refine ⟨_, rfl, fun k hk => ?_⟩
      simp only [List.mem_cons, List.not_mem_nil, or_false] at hk
      exact ⟨_, hk⟩
  all_goals
    intro w re hm hf
    cases hf
    simp only [List.mem_cons, List.not_mem_nil, or_false, Prod.mk.injEq] at hm
    rcases hm with ⟨h, _⟩ | ⟨h, _⟩ | ⟨h, _⟩ <;> exact absurd h (by decide)

end Verif.Schema
