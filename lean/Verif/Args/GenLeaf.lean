import Verif.Args.GenSpec
import Verif.Args.ParseProps
import Verif.Schema.Props
/-!
# The schema of one entry accepts what the entry can have been given
-/

namespace Verif.Args
open Verif JsonDrv Schema

/-- The map has no other keys. -/
def KeysIn (m : List (Bytes × Val)) (K : List Bytes) : Prop := ∀ k, k ∉ K → AMap.get m k = none

theorem KeysIn.nil (K : List Bytes) : KeysIn [] K := fun _ _ => rfl

theorem KeysIn.set {m : List (Bytes × Val)} {K : List Bytes} (h : KeysIn m K) {k : Bytes} (hk : k ∈ K) (v : Val) : KeysIn (AMap.set m k v) K := by
  intro k' hk'
  rw [AMap.get_set_other _ _ _ _ (by rintro rfl; exact hk' hk)]
  exact h k' hk'

theorem KeysIn.copyKey {m : List (Bytes × Val)} {K : List Bytes} (h : KeysIn m K) (c : Config) {k : Bytes} (hk : k ∈ K) :
    KeysIn (copyKey c k m) K := by
  unfold Args.copyKey
  split
  · exact h.set hk _
  · exact h

theorem KeysIn.copyChoices {m : List (Bytes × Val)} {K : List Bytes} (h : KeysIn m K) (c : Config) (hk : kEnum ∈ K) :
    KeysIn (copyChoices c m) K := by
  unfold Args.copyChoices
  split
  · exact h.set hk _
  · exact h

theorem KeysIn.countKey {m : List (Bytes × Val)} {K : List Bytes} (h : KeysIn m K) (w : World) (c : Config) (k : Bytes) {k' : Bytes} (hk : k' ∈ K) :
    KeysIn (countKey w c k k' m) K := by
  unfold Args.countKey
  split
  · split
    · exact h.set hk _
    · exact h
  · exact h

theorem KeysIn.no {m : List (Bytes × Val)} {K : List Bytes} (h : KeysIn m K) {k : Bytes} {v : Val} (hv : has m k v) (hk : k ∉ K) : False := by
  have := h k hk
  unfold has at hv
  rw [this] at hv
  cases hv

theorem KeysIn.mono {m : List (Bytes × Val)} {K K' : List Bytes} (h : KeysIn m K) (hk : ∀ k ∈ K, k ∈ K') : KeysIn m K' :=
  fun k h' => h k fun h'' => h' (hk k h'')

theorem get_set (m : List (Bytes × Val)) (k k' : Bytes) (v : Val) : AMap.get (AMap.set m k v) k' = if k' = k then some v else AMap.get m k' := by
  split
  · next h => subst h; exact AMap.get_set_self ..
  · next h => exact AMap.get_set_other _ _ _ _ h

theorem get_copyKey (c : Config) (k k' : Bytes) (m : List (Bytes × Val)) :
    AMap.get (copyKey c k m) k' = if k' = k then (optGet c k).or (AMap.get m k) else AMap.get m k' := by
  unfold copyKey
  cases h : optGet c k with
  | none => simp; rintro rfl; rfl
  | some x => simp [get_set]

theorem get_copyChoices (c : Config) (k' : Bytes) (m : List (Bytes × Val)) :
    AMap.get (copyChoices c m) k' = if k' = kEnum then ((optGet c kEnum).map deepCopy).or (AMap.get m kEnum) else AMap.get m k' := by
  unfold copyChoices
  cases h : optGet c kEnum with
  | none => simp; rintro rfl; rfl
  | some x => simp [get_set]

/-- The keywords the schema of an entry can have. -/
def leafKeys : List Bytes :=
  [kTitle, kDescription, kDefault, kType, kMinimum, kMaximum, kMinLength, kMaxLength, kPattern, kEnum, kItems, kMinItems, kMaxItems]

/-- Satisfying a schema that has only these keywords. -/
theorem valid_leaf {E : Env} {sub : Val → Val → Vd} {m : List (Bytes × Val)} {d : Val} (q : KeysIn m leafKeys)
    (htype : ∀ t, has m kType t → TypeOk E t d)
    (henum : ∀ v, has m kEnum v → ∃ vs, v = .list vs ∧ ∃ x ∈ vs, veq E.p x d = true)
    (hmin : isNumber d = true → ∀ l, has m kMinimum l → isNumber l = true ∧ ¬ cmp E.p d l < 0)
    (hmax : isNumber d = true → ∀ l, has m kMaximum l → isNumber l = true ∧ ¬ cmp E.p d l > 0)
    (hminl : ∀ s, d = .str s → AtLeast m kMinLength (size (.str s)))
    (hmaxl : ∀ s, d = .str s → AtMost m kMaxLength (size (.str s)))
    (hpat : ∀ s, d = .str s → ∀ p, has m kPattern p → ∃ t g, p = .str t ∧
      E.regex (t.takeWhile (· ≠ 0)) = some g ∧ g (s.takeWhile (· ≠ 0)) = true)
    (hmini : ∀ xs, d = .list xs → AtLeast m kMinItems (size (.list xs)))
    (hmaxi : ∀ xs, d = .list xs → AtMost m kMaxItems (size (.list xs)))
    (hitems : ∀ xs, d = .list xs → ∀ s, has m kItems s → s.ty ≠ .list ∧ ∀ x ∈ xs, sub s x = .accept) : Valid E sub m d where
  ref := fun r h => (q.no h (by decide)).elim
  type := htype
  enum := henum
  number := fun hd =>
    { minimum := fun l h => ⟨(hmin hd l h).1, (hmin hd l h).2, fun x h' => (q.no h' (by decide)).elim⟩
      maximum := fun l h => ⟨(hmax hd l h).1, (hmax hd l h).2, fun x h' => (q.no h' (by decide)).elim⟩
      multipleOf := fun x h => by
        rcases h with h | ⟨_, h⟩
        · exact (q.no h (by decide)).elim
        · exact (q.no h (by decide)).elim }
  string := fun s hs =>
    { minLength := hminl s hs
      maxLength := hmaxl s hs
      pattern := hpat s hs
      formatRegex := fun h => (q.no h (by decide)).elim
      formatOther := fun _ _ _ h => (q.no h (by decide)).elim }
  array := fun xs hx =>
    { minItems := hmini xs hx
      maxItems := hmaxi xs hx
      unique := fun _ h => (q.no h (by decide)).elim
      itemsEach := fun s h _ => (hitems xs hx s h).2
      itemsList := fun ss h => absurd rfl (hitems xs hx _ h).1 }
  object := fun dm _ =>
    { minProperties := fun _ h => (q.no h (by decide)).elim
      maxProperties := fun _ h => (q.no h (by decide)).elim
      required := fun _ h => (q.no h (by decide)).elim
      propertiesForm := fun _ h => (q.no h (by decide)).elim
      patternsForm := fun _ h => (q.no h (by decide)).elim
      properties := fun _ _ _ _ _ h => (q.no h (by decide)).elim
      patterns := fun _ _ _ _ _ _ h => (q.no h (by decide)).elim
      additional := fun _ _ _ _ _ => .inl (q _ (by decide))
      dependencies := fun _ h => (q.no h (by decide)).elim }
  combinations :=
    { allOf := fun _ h => (q.no h (by decide)).elim
      anyOf := fun _ h => (q.no h (by decide)).elim
      oneOf := fun _ h => (q.no h (by decide)).elim
      not := fun _ h => (q.no h (by decide)).elim }

theorem IsCount.number {l : Val} (h : IsCount l) : isNumber l = true ∧ ∃ u, asUnsignedNum l = .ok u ∧ value l = some ((u.toNat : Int) * 2 ^ 1074) := by
  rcases h with ⟨n, rfl⟩ | ⟨i, hi, rfl⟩
  · exact ⟨rfl, n, rfl, rfl⟩
  · refine ⟨rfl, i.toUInt64, rfl, ?_⟩
    simp only [value]
    have h1 := Int64.toNat_toUInt64_of_le (x := i) (by rw [Int64.le_iff_toInt_le]; exact hi)
    have : (i.toUInt64.toNat : Int) = i.toInt := by rw [h1]; exact Int.toNat_of_nonneg hi
    rw [this]

theorem atLeast_of {m : List (Bytes × Val)} {k : Bytes} {n : Nat}
    (h : ∀ l, has m k l → IsCount l ∧ ∀ b, value l = some b → b ≤ (n : Int) * 2 ^ 1074) : AtLeast m k n := by
  intro l hl
  obtain ⟨h1, h2⟩ := h l hl
  obtain ⟨h3, u, h4, h5⟩ := h1.number
  refine ⟨h3, u, h4, ?_⟩
  have := Int.le_of_mul_le_mul_right (h2 _ h5) (Int.pow_pos (by decide))
  omega

theorem atMost_of {m : List (Bytes × Val)} {k : Bytes} {n : Nat}
    (h : ∀ l, has m k l → IsCount l ∧ ∀ b, value l = some b → (n : Int) * 2 ^ 1074 ≤ b) : AtMost m k n := by
  intro l hl
  obtain ⟨h1, h2⟩ := h l hl
  obtain ⟨h3, u, h4, h5⟩ := h1.number
  refine ⟨h3, u, h4, ?_⟩
  have := Int.le_of_mul_le_mul_right (h2 _ h5) (Int.pow_pos (by decide))
  omega

theorem typeWord_ok {E : Env} {ty : Ty} (hn : ty ≠ .null) {v : Val} (h : OfType ty v) : TypeOk E (.str (typeWord ty)) v := by
  refine ⟨[], .str (typeWord ty), [], rfl, nofun, ?_⟩
  cases ty <;> simp only [OfType, reduceCtorEq] at h <;> try exact absurd rfl hn
  all_goals cases v <;> simp_all [Val.ty, typeWord, hasType, isNumber, wArray, wBoolean, wInteger, wNull, wNumber, wObject, wString]

/-- The keywords for the value of a word. -/
theorem limits_valid {w : World} {E : Env} (hE : SameWorld w E) {sub : Val → Val → Vd} {c : Config} (hs : Settings c) {m : List (Bytes × Val)}
    (q : KeysIn m leafKeys) (hi : lacks m kItems) (hmini : lacks m kMinItems) (hmaxi : lacks m kMaxItems)
    (ht : ∀ t, has m kType t → c.ty ≠ .null ∧ t = .str (typeWord c.ty))
    (hmin : ∀ l, has m kMinimum l → optGet c kMinimum = some l) (hmax : ∀ l, has m kMaximum l → optGet c kMaximum = some l)
    (hminl : ∀ l, has m kMinLength l → optGet c kMinLength = some l) (hmaxl : ∀ l, has m kMaxLength l → optGet c kMaxLength = some l)
    (hpat : ∀ l, has m kPattern l → optGet c kPattern = some l) (henum : ∀ l, has m kEnum l → ∃ x, optGet c kEnum = some x ∧ l = deepCopy x)
    {v : Val} (hv : OfType c.ty v) (hm : Meets w c v) : Valid E sub m v := by
  obtain ⟨hp, hre⟩ := hE
  refine valid_leaf q ?_ ?_ ?_ ?_ ?_ ?_ ?_ ?_ ?_ ?_
  · intro t h
    obtain ⟨h1, rfl⟩ := ht t h
    exact typeWord_ok h1 hv
  · intro l h
    obtain ⟨x, h1, rfl⟩ := henum l h
    rw [hs.choices x h1]
    obtain ⟨xs, rfl, y, hy, he⟩ := hm.enum x h1
    exact ⟨xs, rfl, y, hy, by rw [hp]; exact veq_symm _ _ _ he⟩
  · intro hn l h
    have := hmin l h
    exact ⟨hs.minimum l this, by rw [hp]; exact hm.notBelow l hn this⟩
  · intro hn l h
    have := hmax l h
    exact ⟨hs.maximum l this, by rw [hp]; exact hm.notAbove l hn this⟩
  · rintro s rfl
    exact atLeast_of fun l h => ⟨hs.minLength l (hminl l h), fun b hb => hm.minLength s l b rfl (hminl l h) hb⟩
  · rintro s rfl
    exact atMost_of fun l h => ⟨hs.maxLength l (hmaxl l h), fun b hb => hm.maxLength s l b rfl (hmaxl l h) hb⟩
  · rintro s rfl x h
    have h1 := hpat x h
    have h2 := hs.pattern x h1
    cases x <;> simp only [Val.ty, reduceCtorEq] at h2
    next pat =>
      obtain ⟨g, h3, h4⟩ := hm.pattern s (.str pat) pat rfl h1 rfl
      exact ⟨pat, g, rfl, by rw [hre]; exact h3, h4⟩
  · intro xs _ l h; unfold has at h; rw [hmini] at h; cases h
  · intro xs _ l h; unfold has at h; rw [hmaxi] at h; cases h
  · intro xs _ l h; unfold has at h; rw [hi] at h; cases h

theorem KeysIn.limitKeys {m : List (Bytes × Val)} {K : List Bytes} (h : KeysIn m K) (c : Config)
    (hk : ∀ k ∈ [kType, kMinimum, kMaximum, kMinLength, kMaxLength, kPattern, kEnum], k ∈ K) : KeysIn (limitKeys c m) K := by
  unfold Args.limitKeys
  have h0 : KeysIn (if c.ty = .null then m else AMap.set m kType (.str (typeWord c.ty))) K := by
    split
    · exact h
    · exact h.set (hk _ (by decide)) _
  exact (((((h0.copyKey c (hk _ (by decide))).copyKey c (hk _ (by decide))).copyKey c (hk _ (by decide))).copyKey c (hk _ (by decide))).copyKey c
    (hk _ (by decide))).copyChoices c (hk _ (by decide))

/-- The keywords for the value of a word, in a schema that has none of them yet. -/
theorem get_limitKeys {c : Config} {m : List (Bytes × Val)} (q : KeysIn m [kTitle, kDescription]) : ∀ k, k ∉ [kTitle, kDescription] → AMap.get (limitKeys c m) k =
      if k = kEnum then (optGet c kEnum).map deepCopy else if k = kPattern then optGet c kPattern else if k = kMaxLength then optGet c kMaxLength
      else if k = kMinLength then optGet c kMinLength else if k = kMaximum then optGet c kMaximum else if k = kMinimum then optGet c kMinimum
      else if k = kType then (if c.ty = .null then none else some (.str (typeWord c.ty))) else none := by
  intro k hk
  have hq := fun k (hk : k ∉ [kTitle, kDescription]) => q k hk
  have ht : ∀ k, k ∉ [kTitle, kDescription] → AMap.get (if c.ty = .null then m else AMap.set m kType (.str (typeWord c.ty))) k =
      if k = kType then (if c.ty = .null then none else some (.str (typeWord c.ty))) else none := by
    intro k hk
    split
    · rw [hq k hk]; split <;> rfl
    · rw [get_set, hq k hk]
  unfold limitKeys
  simp only [get_copyChoices, get_copyKey, ht k hk]
  simp only [ht kMinimum (by decide), ht kMaximum (by decide), ht kMinLength (by decide), ht kMaxLength (by decide), ht kPattern (by decide), ht kEnum (by decide)]
  have e1 : kMinimum ≠ kType := by decide
  have e2 : kMaximum ≠ kType := by decide
  have e3 : kMinLength ≠ kType := by decide
  have e4 : kMaxLength ≠ kType := by decide
  have e5 : kPattern ≠ kType := by decide
  have e6 : kEnum ≠ kType := by decide
  have e7 : kMaximum ≠ kMinimum := by decide
  have e8 : kMinLength ≠ kMinimum := by decide
  have e9 : kMinLength ≠ kMaximum := by decide
  have e10 : kMaxLength ≠ kMinimum := by decide
  have e11 : kMaxLength ≠ kMaximum := by decide
  have e12 : kMaxLength ≠ kMinLength := by decide
  have e13 : kPattern ≠ kMinimum := by decide
  have e14 : kPattern ≠ kMaximum := by decide
  have e15 : kPattern ≠ kMinLength := by decide
  have e16 : kPattern ≠ kMaxLength := by decide
  have e17 : kEnum ≠ kMinimum := by decide
  have e18 : kEnum ≠ kMaximum := by decide
  have e19 : kEnum ≠ kMinLength := by decide
  have e20 : kEnum ≠ kMaxLength := by decide
  have e21 : kEnum ≠ kPattern := by decide
  simp only [e1, e2, e3, e4, e5, e6, e7, e8, e9, e10, e11, e12, e13, e14, e15, e16, e17, e18, e19, e20, e21, if_false, Option.or_none]

/-- They accept what fits. -/
theorem limitKeys_valid {w : World} {E : Env} (hE : SameWorld w E) {sub : Val → Val → Vd} {c : Config} (hs : Settings c) {m : List (Bytes × Val)}
    (q : KeysIn m [kTitle, kDescription]) (m' : List (Bytes × Val)) (hm' : m' = limitKeys c m ∨ m' = copyKey c kDefault (limitKeys c m))
    {v : Val} (hv : OfType c.ty v) (hm : Meets w c v) : Valid E sub m' v := by
  have q0 : KeysIn (limitKeys c m) leafKeys := (q.mono (by decide)).limitKeys c (by decide)
  have q1 : KeysIn m' leafKeys := by
    rcases hm' with rfl | rfl
    · exact q0
    · exact q0.copyKey c (by decide)
  have key : ∀ k, k ≠ kDefault → AMap.get m' k = AMap.get (limitKeys c m) k := by
    intro k hk
    rcases hm' with rfl | rfl
    · rfl
    · rw [get_copyKey, if_neg hk]
  have base := get_limitKeys (c := c) q
  have get := fun k (h1 : k ≠ kDefault) (h2 : k ∉ [kTitle, kDescription]) => (key k h1).trans (base k h2)
  refine limits_valid hE hs q1 (get _ (by decide) (by decide)) (get _ (by decide) (by decide)) (get _ (by decide) (by decide)) ?_ ?_ ?_ ?_ ?_ ?_ ?_ hv hm
  · intro t h
    have h : AMap.get m' kType = some t := h
    rw [get _ (by decide) (by decide)] at h
    by_cases e : c.ty = .null
    · rw [e] at h; cases (show (none : Option Val) = some t from h)
    · refine ⟨e, ?_⟩
      rw [if_neg e] at h
      have : (some (Val.str (typeWord c.ty))) = some t := h
      simpa using this.symm
  · intro l h; exact (get _ (by decide) (by decide)).symm.trans h
  · intro l h; exact (get _ (by decide) (by decide)).symm.trans h
  · intro l h; exact (get _ (by decide) (by decide)).symm.trans h
  · intro l h; exact (get _ (by decide) (by decide)).symm.trans h
  · intro l h; exact (get _ (by decide) (by decide)).symm.trans h
  · intro l h
    have h1 : (optGet c kEnum).map deepCopy = some l := (get _ (by decide) (by decide)).symm.trans h
    cases h2 : optGet c kEnum with
    | none => rw [h2] at h1; cases h1
    | some x => rw [h2] at h1; exact ⟨x, rfl, by simpa using h1.symm⟩

/-! ## The whole schema of an entry -/

theorem headKeys (c : Config) : KeysIn (copyKey c kDescription (copyKey c kTitle [])) [kTitle, kDescription] :=
  ((KeysIn.nil _).copyKey c (by decide)).copyKey c (by decide)

theorem get_copy_other {c : Config} {k k' : Bytes} {m : List (Bytes × Val)} (h : k' ≠ k) : AMap.get (copyKey c k m) k' = AMap.get m k' := by
  rw [get_copyKey, if_neg h]

theorem get_countKey (w : World) (c : Config) (k k1 k' : Bytes) (m : List (Bytes × Val)) :
    (k' ≠ k1 → AMap.get (countKey w c k k1 m) k' = AMap.get m k') ∧
    (∀ l, AMap.get m k1 = none → AMap.get (countKey w c k k1 m) k1 = some l → optGet c k = some l ∧ cmp w.p l (.int 0) > 0) := by
  unfold countKey
  cases h : optGet c k with
  | none => exact ⟨fun _ => rfl, fun l h1 h2 => by rw [h1] at h2; cases h2⟩
  | some x =>
    dsimp only
    split
    · next hc =>
      refine ⟨fun hk => AMap.get_set_other _ _ _ _ hk, fun l _ h2 => ?_⟩
      rw [AMap.get_set_self] at h2; cases h2; exact ⟨rfl, hc⟩
    · exact ⟨fun _ => rfl, fun l h1 h2 => by rw [h1] at h2; cases h2⟩

theorem checkCount_counted {w : World} (hp : 64 ≤ w.p) {c : Config} {xs : List Val} (h : checkCount w c (.list xs) = .ok ()) : Counted w c xs := by
  unfold checkCount at h
  obtain ⟨_, h1, h2⟩ := Out.bind_eq_ok.1 h
  have hlt : size (.list xs) < 2 ^ 64 := Nat.lt_of_lt_of_le (Nat.mod_lt _ (by decide)) (by decide)
  constructor
  · intro l b hl hb
    have h3 := needs_ok h2 hl
    have h4 : refuse (decide (cmp w.p l (.uint (UInt64.ofNat (size (.list xs)))) > 0)) = .ok () := h3
    exact cmp_not_gt hp hb (value_size hlt) (refuse_ok h4)
  · intro l b hl hc hb
    have h3 := needs_ok h1 hl
    rw [if_pos (by omega)] at h3
    have h4 : refuse (decide (cmp w.p l (.uint (UInt64.ofNat (size (.list xs)))) < 0)) = .ok () := h3
    exact cmp_not_lt hp hb (value_size hlt) (refuse_ok h4)

theorem boolType {E : Env} {v : Val} (h : v.ty = .bool) : TypeOk E (.str wBoolean) v := typeWord_ok (ty := .bool) (by decide) h

/-- The schema of an entry has only these keywords. -/
theorem valueSchema_keys {w : World} {c : Config} (hs : Settings c) : ∃ m, valueSchema w c = .ok (.map m) ∧ KeysIn m leafKeys := by
  have q := headKeys c
  have q' : KeysIn (copyKey c kDescription (copyKey c kTitle [])) leafKeys := q.mono (by decide)
  unfold valueSchema
  cases ha : c.action <;> dsimp only
  case store => exact ⟨_, rfl, (q'.limitKeys c (by decide)).copyKey c (by decide)⟩
  case storeConst =>
    obtain ⟨x, hx⟩ := hs.const ha
    have : getKeyC c.opt kConst = .ok x := by
      unfold optGet at hx
      unfold getKeyC
      cases ho : c.opt <;> rw [ho] at hx <;> simp only [getKey?, reduceCtorEq] at hx ⊢
      rw [hx]
    rw [this]
    exact ⟨_, rfl, q'.set (by decide) _⟩
  case storeTrue => exact ⟨_, rfl, (q'.set (by decide) _).copyKey c (by decide)⟩
  case storeFalse => exact ⟨_, rfl, (q'.set (by decide) _).copyKey c (by decide)⟩
  case append =>
    refine ⟨_, rfl, KeysIn.countKey (KeysIn.countKey (KeysIn.set ?_ (by decide) _) _ _ _ (by decide)) _ _ _ (by decide)⟩
    unfold copyDefault
    split
    · exact q'.set (by decide) _
    · exact q'
  case count => exact ⟨_, rfl, (q'.set (by decide) _).set (by decide) _⟩
  all_goals exact ⟨_, rfl, q'⟩

theorem flag_valid {E : Env} {sub : Val → Val → Vd} {c : Config} {r : Val} (hf : r.ty = .bool) :
    Valid E sub (copyKey c kDefault (AMap.set (copyKey c kDescription (copyKey c kTitle [])) kType (.str wBoolean))) r := by
  have hq := headKeys c
  have q : KeysIn (copyKey c kDefault (AMap.set (copyKey c kDescription (copyKey c kTitle [])) kType (.str wBoolean))) leafKeys :=
    ((hq.mono (by decide)).set (by decide) _).copyKey c (by decide)
  have hl : ∀ k, k ∉ [kTitle, kDescription] → k ≠ kDefault → k ≠ kType → ∀ v, ¬ has
      (copyKey c kDefault (AMap.set (copyKey c kDescription (copyKey c kTitle [])) kType (.str wBoolean))) k v := by
    intro k h1 h2 h3 v h
    unfold has at h
    rw [get_copy_other h2, get_set, if_neg h3, hq k h1] at h
    cases h
  refine valid_leaf q ?_ ?_ ?_ ?_ ?_ ?_ ?_ ?_ ?_ ?_
  · intro v h
    unfold has at h
    rw [get_copy_other (by decide), AMap.get_set_self] at h
    cases h
    exact boolType hf
  · intro v h; exact absurd h (hl _ (by decide) (by decide) (by decide) _)
  · intro _ v h; exact absurd h (hl _ (by decide) (by decide) (by decide) _)
  · intro _ v h; exact absurd h (hl _ (by decide) (by decide) (by decide) _)
  · intro _ _ v h; exact absurd h (hl _ (by decide) (by decide) (by decide) _)
  · intro _ _ v h; exact absurd h (hl _ (by decide) (by decide) (by decide) _)
  · intro _ _ v h; exact absurd h (hl _ (by decide) (by decide) (by decide) _)
  · intro _ _ v h; exact absurd h (hl _ (by decide) (by decide) (by decide) _)
  · intro _ _ v h; exact absurd h (hl _ (by decide) (by decide) (by decide) _)
  · intro _ _ v h; exact absurd h (hl _ (by decide) (by decide) (by decide) _)

/-- The schema of an entry accepts what the entry can have been given. -/
theorem valueSchema_accepts {w : World} (hp : 64 ≤ w.p) {E : Env} (hE : SameWorld w E) {c : Config} (hs : Settings c) {r : Val} (hf : Fits w c r)
    (hcount : ∀ xs, c.action = .append → r = .list xs → Counted w c xs) {m : List (Bytes × Val)} (hm : valueSchema w c = .ok (.map m))
    {fuel depth : Nat} (hfuel : 2 ≤ fuel) (hd : depth + 2 ≤ 100) : Acc (validate E fuel depth (.map m) r) := by
  obtain ⟨fuel, rfl⟩ : ∃ n, fuel = n + 2 := ⟨fuel - 2, by omega⟩
  rw [validate, if_neg (by unfold recursionLimit; omega), acc_body]
  obtain ⟨m', hm', q⟩ := valueSchema_keys (w := w) hs
  rw [hm] at hm'
  cases hm'
  have hq := headKeys c
  unfold valueSchema at hm
  unfold Fits at hf
  cases ha : c.action <;> rw [ha] at hm hf <;> dsimp only at hm hf
  case store =>
    cases hm
    exact limitKeys_valid hE hs hq _ (.inr rfl) hf.1 hf.2
  case storeConst =>
    have : getKeyC c.opt kConst = .ok r := by
      unfold optGet at hf
      unfold getKeyC
      cases ho : c.opt <;> rw [ho] at hf <;> simp only [getKey?, reduceCtorEq] at hf ⊢
      rw [hf]
    rw [this] at hm
    cases hm
    have hl : ∀ k, k ∉ [kTitle, kDescription] → k ≠ kEnum → ∀ v, ¬ has (AMap.set (copyKey c kDescription (copyKey c kTitle [])) kEnum (.list [r])) k v := by
      intro k h1 h2 v h3
      unfold has at h3
      rw [AMap.get_set_other _ _ _ _ h2] at h3
      exact hq.no h3 h1
    refine valid_leaf q ?_ ?_ ?_ ?_ ?_ ?_ ?_ ?_ ?_ ?_
    · intro v h; exact absurd h (hl _ (by decide) (by decide) _)
    · intro v h
      unfold has at h
      rw [AMap.get_set_self] at h
      cases h
      exact ⟨_, rfl, r, by simp, veq_refl _ _⟩
    · intro _ v h; exact absurd h (hl _ (by decide) (by decide) _)
    · intro _ v h; exact absurd h (hl _ (by decide) (by decide) _)
    · intro _ _ v h; exact absurd h (hl _ (by decide) (by decide) _)
    · intro _ _ v h; exact absurd h (hl _ (by decide) (by decide) _)
    · intro _ _ v h; exact absurd h (hl _ (by decide) (by decide) _)
    · intro _ _ v h; exact absurd h (hl _ (by decide) (by decide) _)
    · intro _ _ v h; exact absurd h (hl _ (by decide) (by decide) _)
    · intro _ _ v h; exact absurd h (hl _ (by decide) (by decide) _)
  case append =>
    obtain ⟨xs, rfl, hx⟩ := hf
    obtain ⟨hc1, hc2⟩ := hcount xs ha rfl
    have get0 : ∀ k, k ∉ [kTitle, kDescription] → k ≠ kDefault → AMap.get (copyDefault c (copyKey c kDescription (copyKey c kTitle []))) k = none := by
      intro k h1 h2
      unfold copyDefault
      split
      · rw [AMap.get_set_other _ _ _ _ h2]; exact hq k h1
      · exact hq k h1
    generalize copyDefault c (copyKey c kDescription (copyKey c kTitle [])) = m0 at hm get0
    cases hm
    have get1 : ∀ k, k ∉ [kTitle, kDescription] → k ≠ kDefault → k ≠ kMinItems → k ≠ kMaxItems → AMap.get
        (countKey w c kMaxArgs kMaxItems (countKey w c kMinArgs kMinItems (AMap.set m0 kItems (.map (limitKeys c []))))) k =
        if k = kItems then some (.map (limitKeys c [])) else none := by
      intro k h1 h2 h3 h4
      rw [(get_countKey ..).1 h4, (get_countKey ..).1 h3, get_set, get0 k h1 h2]
    have hl : ∀ k, k ∉ [kTitle, kDescription] → k ≠ kDefault → k ≠ kMinItems → k ≠ kMaxItems → k ≠ kItems → ∀ v, ¬ has
        (countKey w c kMaxArgs kMaxItems (countKey w c kMinArgs kMinItems (AMap.set m0 kItems (.map (limitKeys c []))))) k v := by
      intro k h1 h2 h3 h4 h5 v h
      unfold has at h
      rw [get1 k h1 h2 h3 h4, if_neg h5] at h
      cases h
    refine valid_leaf q ?_ ?_ ?_ ?_ ?_ ?_ ?_ ?_ ?_ ?_
    · intro v h; exact absurd h (hl _ (by decide) (by decide) (by decide) (by decide) (by decide) _)
    · intro v h; exact absurd h (hl _ (by decide) (by decide) (by decide) (by decide) (by decide) _)
    · intro _ v h; exact absurd h (hl _ (by decide) (by decide) (by decide) (by decide) (by decide) _)
    · intro _ v h; exact absurd h (hl _ (by decide) (by decide) (by decide) (by decide) (by decide) _)
    · intro _ _ v h; exact absurd h (hl _ (by decide) (by decide) (by decide) (by decide) (by decide) _)
    · intro _ _ v h; exact absurd h (hl _ (by decide) (by decide) (by decide) (by decide) (by decide) _)
    · intro _ _ v h; exact absurd h (hl _ (by decide) (by decide) (by decide) (by decide) (by decide) _)
    · rintro ys e
      cases e
      refine atLeast_of fun l h => ?_
      unfold has at h
      rw [(get_countKey ..).1 (by decide)] at h
      obtain ⟨h1, _⟩ := (get_countKey w c kMinArgs kMinItems kMinItems _).2 l (by
        rw [AMap.get_set_other _ _ _ _ (by decide)]; exact get0 _ (by decide) (by decide)) h
      exact ⟨hs.minArgs l h1, fun b hb => hc1 l b h1 hb⟩
    · rintro ys e
      cases e
      refine atMost_of fun l h => ?_
      obtain ⟨h1, h2⟩ := (get_countKey w c kMaxArgs kMaxItems kMaxItems _).2 l (by
        rw [(get_countKey ..).1 (by decide), AMap.get_set_other _ _ _ _ (by decide)]; exact get0 _ (by decide) (by decide)) h
      exact ⟨hs.maxArgs l h1, fun b hb => hc2 l b h1 h2 hb⟩
    · rintro ys e s h
      cases e
      unfold has at h
      rw [get1 _ (by decide) (by decide) (by decide) (by decide), if_pos rfl] at h
      cases h
      refine ⟨nofun, fun x hx' => ?_⟩
      unfold sub
      rw [verdict_accept, validate, if_neg (by unfold recursionLimit; omega), acc_body]
      exact limitKeys_valid hE hs (KeysIn.nil _) _ (.inl rfl) (hx x hx').1 (hx x hx').2
  case count =>
    cases hm
    have get1 : ∀ k, k ∉ [kTitle, kDescription] → AMap.get
        (AMap.set (AMap.set (copyKey c kDescription (copyKey c kTitle [])) kType (.str wInteger)) kMinimum (.int 0)) k =
        if k = kMinimum then some (.int 0) else if k = kType then some (.str wInteger) else none := by
      intro k h1
      rw [get_set, get_set, hq k h1]
    have hl : ∀ k, k ∉ [kTitle, kDescription] → k ≠ kMinimum → k ≠ kType → ∀ v, ¬ has
        (AMap.set (AMap.set (copyKey c kDescription (copyKey c kTitle [])) kType (.str wInteger)) kMinimum (.int 0)) k v := by
      intro k h1 h2 h3 v h
      unfold has at h
      rw [get1 k h1, if_neg h2, if_neg h3] at h
      cases h
    refine valid_leaf q ?_ ?_ ?_ ?_ ?_ ?_ ?_ ?_ ?_ ?_
    · intro v h
      unfold has at h
      rw [get1 _ (by decide), if_neg (by decide), if_pos rfl] at h
      cases h
      exact typeWord_ok (ty := .int) (by decide) (.inr hf)
    · intro v h; exact absurd h (hl _ (by decide) (by decide) (by decide) _)
    · intro _ l h
      unfold has at h
      rw [get1 _ (by decide), if_pos rfl] at h
      cases h
      refine ⟨rfl, ?_⟩
      cases r <;> simp only [Val.ty, reduceCtorEq] at hf
      next n _ =>
        rw [hE.1, cmp_value hp (v := .uint n) (w := .int 0) rfl rfl]
        have : ¬ (n.toNat : Int) * 2 ^ 1074 < (0 : Int64).toInt * 2 ^ 1074 := by
          have h1 : (0 : Int64).toInt = 0 := by decide
          rw [h1, Int.zero_mul]
          have := Int.mul_nonneg (Int.natCast_nonneg n.toNat) (Int.le_of_lt (show (0 : Int) < 2 ^ 1074 from Int.pow_pos (by decide)))
          omega
        rw [if_neg this]
        split <;> decide
    · intro _ v h; exact absurd h (hl _ (by decide) (by decide) (by decide) _)
    · intro _ _ v h; exact absurd h (hl _ (by decide) (by decide) (by decide) _)
    · intro _ _ v h; exact absurd h (hl _ (by decide) (by decide) (by decide) _)
    · intro _ _ v h; exact absurd h (hl _ (by decide) (by decide) (by decide) _)
    · intro _ _ v h; exact absurd h (hl _ (by decide) (by decide) (by decide) _)
    · intro _ _ v h; exact absurd h (hl _ (by decide) (by decide) (by decide) _)
    · intro _ _ v h; exact absurd h (hl _ (by decide) (by decide) (by decide) _)
  case storeTrue => cases hm; exact flag_valid hf
  case storeFalse => cases hm; exact flag_valid hf

end Verif.Args
