import Verif.Args.GenProps
/-!
# What the schema of an entry allows
-/

namespace Verif.Args
open Verif JsonDrv Schema

/-- The type named by a schema. -/
theorem hasType_fits {E : Env} (hp : 64 ≤ E.p) {ty : Ty} (hn : ty ≠ .null) (ht : ty ∈ [Ty.null, .bool, .int, .uint, .flt, .str]) {v : Val} :
    hasType E v (.str (typeWord ty)) = some true ↔ TypeFits ty v := by
  have hi : ∀ v : Val, hasType E v (.str wInteger) = some true ↔ (v.ty = .int ∨ v.ty = .uint) ∨ (v.ty = .flt ∧ ∀ n, value v = some n → (2 ^ 1074 : Int) ∣ n) := by
    intro v
    have e : hasType E v (.str wInteger) = some (v.ty == .int || v.ty == .uint ||
        (v.ty == .flt && (numLD E.p v).any fun a => ldCompare (ldMod a (LD.ofInt E.p 1)) (LD.ofInt E.p 0) == 0)) := rfl
    rw [e]
    cases v with
    | flt b =>
      have e1 : LD.ofInt E.p 1 = .fin (2 ^ 1074) := by
        rw [LD.ofInt_exact (show Int.natAbs 1 < 2 ^ E.p from Nat.one_lt_two_pow (by omega))]; simp
      have e0 : LD.ofInt E.p 0 = .fin 0 := by
        rw [LD.ofInt_exact (show Int.natAbs 0 < 2 ^ E.p from Nat.pow_pos (by decide))]; simp
      rw [e1, e0]
      simp only [Val.ty, numLD, Option.any_some, value]
      cases h : LD.ofDouble b with
      | nan => simp [ldMod, ldCompare, LD.lt]
      | inf s => simp [ldMod, ldCompare, LD.lt]
      | fin n =>
        have hz : (2 ^ 1074 : Int) ≠ 0 := by exact Int.ne_of_gt (Int.pow_pos (by decide))
        simp only [ldMod, if_neg hz, ldCompare, LD.lt]
        generalize (2 ^ 1074 : Int) = P at hz ⊢
        have hd : Int.tmod n P = 0 ↔ P ∣ n := ⟨Int.dvd_of_tmod_eq_zero, Int.tmod_eq_zero_of_dvd⟩
        rw [show (∀ k, some n = some k → P ∣ k) ↔ Int.tmod n P = 0 from ⟨fun h => hd.2 (h n rfl), fun h k e => by cases e; exact hd.1 h⟩]
        generalize Int.tmod n P = r
        rcases Int.lt_trichotomy r 0 with h | h | h
        · have : ¬ r = 0 := by omega
          simp [h, this]
        · simp [h]
        · have h1 : ¬ r < 0 := by omega
          have h2 : ¬ r = 0 := by omega
          simp [h, h1, h2]
    | _ => simp [Val.ty]
  unfold TypeFits
  simp only [List.mem_cons, List.not_mem_nil, or_false] at ht
  rcases ht with rfl | rfl | rfl | rfl | rfl | rfl
  · exact absurd rfl hn
  · have : hasType E v (.str (typeWord .bool)) = some (v.ty == .bool) := rfl
    rw [this]; simp [OfType]
  · have := hi v
    simpa [OfType, typeWord] using this
  · have := hi v
    simpa [OfType, typeWord] using this
  · have : hasType E v (.str (typeWord .flt)) = some (isNumber v) := rfl
    rw [this]; cases v <;> simp [OfType, isNumber, Val.ty]
  · have : hasType E v (.str (typeWord .str)) = some (v.ty == .str) := rfl
    rw [this]; simp [OfType]

/-- A schema that names one type. -/
theorem typeOk_str {E : Env} {t : Bytes} {v : Val} : TypeOk E (.str t) v ↔ hasType E v (.str t) = some true := by
  constructor
  · rintro ⟨pre, x, post, h1, _, h3⟩
    have h1 : [Val.str t] = pre ++ x :: post := by simpa [Val.ty] using h1
    cases pre with
    | nil => simp at h1; rw [h1.1]; exact h3
    | cons y pre => simp at h1
  · intro h
    exact ⟨[], _, [], rfl, nofun, h⟩

/-- What is asked of a value by a schema that has only the keywords of the schema of an entry. -/
structure LeafSays (E : Env) (sub : Val → Val → Vd) (m : List (Bytes × Val)) (d : Val) : Prop where
  type : ∀ t, has m kType t → TypeOk E t d
  enum : ∀ v, has m kEnum v → ∃ vs, v = .list vs ∧ ∃ x ∈ vs, veq E.p x d = true
  min : isNumber d = true → ∀ l, has m kMinimum l → isNumber l = true ∧ ¬ cmp E.p d l < 0
  max : isNumber d = true → ∀ l, has m kMaximum l → isNumber l = true ∧ ¬ cmp E.p d l > 0
  minl : ∀ s, d = .str s → AtLeast m kMinLength (size (.str s))
  maxl : ∀ s, d = .str s → AtMost m kMaxLength (size (.str s))
  pat : ∀ s, d = .str s → ∀ p, has m kPattern p → ∃ t g, p = .str t ∧
    E.regex (t.takeWhile (· ≠ 0)) = some g ∧ g (s.takeWhile (· ≠ 0)) = true
  mini : ∀ xs, d = .list xs → AtLeast m kMinItems (size (.list xs))
  maxi : ∀ xs, d = .list xs → AtMost m kMaxItems (size (.list xs))
  items : ∀ xs, d = .list xs → ∀ s, has m kItems s → ∀ x ∈ xs, sub s x = .accept

theorem valid_leaf_iff {E : Env} {sub : Val → Val → Vd} {m : List (Bytes × Val)} {d : Val} (q : KeysIn m leafKeys)
    (hi : ∀ s, has m kItems s → s.ty ≠ .list) : Valid E sub m d ↔ LeafSays E sub m d := by
  constructor
  · intro h
    exact
      { type := h.type
        enum := h.enum
        min := fun hd l hl => ⟨((h.number hd).minimum l hl).1, ((h.number hd).minimum l hl).2.1⟩
        max := fun hd l hl => ⟨((h.number hd).maximum l hl).1, ((h.number hd).maximum l hl).2.1⟩
        minl := fun s hs => (h.string s hs).minLength
        maxl := fun s hs => (h.string s hs).maxLength
        pat := fun s hs => (h.string s hs).pattern
        mini := fun xs hx => (h.array xs hx).minItems
        maxi := fun xs hx => (h.array xs hx).maxItems
        items := fun xs hx s hs => (h.array xs hx).itemsEach s hs (hi s hs) }
  · intro h
    exact valid_leaf q h.type h.enum h.min h.max h.minl h.maxl h.pat h.mini h.maxi fun xs hx s hs => ⟨hi s hs, h.items xs hx s hs⟩

theorem atLeast_iff {m : List (Bytes × Val)} {k : Bytes} {n : Nat} (hc : ∀ l, has m k l → IsCount l) :
    AtLeast m k n ↔ ∀ l b, has m k l → value l = some b → b ≤ (n : Int) * 2 ^ 1074 := by
  constructor
  · intro h l b hl hb
    obtain ⟨_, u, h1, h2⟩ := h l hl
    obtain ⟨_, u', h3, h4⟩ := (hc l hl).number
    rw [h1] at h3; cases h3
    rw [hb] at h4; cases h4
    exact Int.mul_le_mul_of_nonneg_right (by omega) (Int.le_of_lt (Int.pow_pos (by decide)))
  · intro h
    exact atLeast_of fun l hl => ⟨hc l hl, fun b hb => h l b hl hb⟩

theorem atMost_iff {m : List (Bytes × Val)} {k : Bytes} {n : Nat} (hc : ∀ l, has m k l → IsCount l) :
    AtMost m k n ↔ ∀ l b, has m k l → value l = some b → (n : Int) * 2 ^ 1074 ≤ b := by
  constructor
  · intro h l b hl hb
    obtain ⟨_, u, h1, h2⟩ := h l hl
    obtain ⟨_, u', h3, h4⟩ := (hc l hl).number
    rw [h1] at h3; cases h3
    rw [hb] at h4; cases h4
    exact Int.mul_le_mul_of_nonneg_right (by omega) (Int.le_of_lt (Int.pow_pos (by decide)))
  · intro h
    exact atMost_of fun l hl => ⟨hc l hl, fun b hb => h l b hl hb⟩

/-- The keywords for the value of a word say that it has the type of the entry and meets its requirements. -/
theorem limitKeys_iff {w : World} (hp : 64 ≤ w.p) {E : Env} (hE : SameWorld w E) {sub : Val → Val → Vd} {c : Config} (hs : Settings c) {m : List (Bytes × Val)}
    (q : KeysIn m [kTitle, kDescription]) (m' : List (Bytes × Val)) (hm' : m' = limitKeys c m ∨ m' = copyKey c kDefault (limitKeys c m))
    {v : Val} : Valid E sub m' v ↔ TypeFits c.ty v ∧ Meets w c v := by
  obtain ⟨hpE, hre⟩ := hE
  have q0 : KeysIn (limitKeys c m) leafKeys := (q.mono (by decide)).limitKeys c (by decide)
  have q1 : KeysIn m' leafKeys := by
    rcases hm' with rfl | rfl
    · exact q0
    · exact q0.copyKey c (by decide)
  have key : ∀ k, k ≠ kDefault → AMap.get m' k = AMap.get (limitKeys c m) k := by
    intro k hk
    rcases hm' with rfl | rfl
    · rfl
    · rw [get_copyKey, if_neg hk]
  have get := fun k (h1 : k ≠ kDefault) (h2 : k ∉ [kTitle, kDescription]) => (key k h1).trans (get_limitKeys (c := c) q k h2)
  have gitems : AMap.get m' kItems = none := get _ (by decide) (by decide)
  have gmini : AMap.get m' kMinItems = none := get _ (by decide) (by decide)
  have gmaxi : AMap.get m' kMaxItems = none := get _ (by decide) (by decide)
  have gtype : AMap.get m' kType = if c.ty = .null then none else some (.str (typeWord c.ty)) := get _ (by decide) (by decide)
  have gmin : AMap.get m' kMinimum = optGet c kMinimum := get _ (by decide) (by decide)
  have gmax : AMap.get m' kMaximum = optGet c kMaximum := get _ (by decide) (by decide)
  have gminl : AMap.get m' kMinLength = optGet c kMinLength := get _ (by decide) (by decide)
  have gmaxl : AMap.get m' kMaxLength = optGet c kMaxLength := get _ (by decide) (by decide)
  have gpat : AMap.get m' kPattern = optGet c kPattern := get _ (by decide) (by decide)
  have genum : AMap.get m' kEnum = (optGet c kEnum).map deepCopy := get _ (by decide) (by decide)
  have none_has : ∀ {k x}, AMap.get m' k = none → ¬ has m' k x := by
    intro k x h1 h2; unfold has at h2; rw [h1] at h2; cases h2
  rw [valid_leaf_iff q1 (fun s h => absurd h (none_has gitems))]
  constructor
  · intro h
    refine ⟨?_, ?_⟩
    · by_cases e : c.ty = .null
      · rw [e]; exact .inl trivial
      · rw [if_neg e] at gtype
        have := h.type _ gtype
        rw [typeOk_str, hasType_fits (by omega) e hs.ty] at this
        exact this
    · have hbelow : ∀ l, isNumber v = true → optGet c kMinimum = some l → ¬ cmp w.p v l < 0 := by
        intro l hn hl
        rw [← hpE]; exact (h.min hn l (gmin.trans hl)).2
      have habove : ∀ l, isNumber v = true → optGet c kMaximum = some l → ¬ cmp w.p v l > 0 := by
        intro l hn hl
        rw [← hpE]; exact (h.max hn l (gmax.trans hl)).2
      refine ⟨?_, ?_, ?_, ?_, ?_, hbelow, habove, ?_⟩
      · rintro s l n rfl hl hb
        exact (atLeast_iff fun l hl => hs.minLength l (gminl.symm.trans hl)).1 (h.minl s rfl) l n (gminl.trans hl) hb
      · rintro s l n rfl hl hb
        exact (atMost_iff fun l hl => hs.maxLength l (gmaxl.symm.trans hl)).1 (h.maxl s rfl) l n (gmaxl.trans hl) hb
      · rintro s x pat rfl hx hpat
        obtain ⟨t, g, rfl, h2, h3⟩ := h.pat s rfl x (gpat.trans hx)
        cases (show Out.ok t = Out.ok pat from hpat)
        exact ⟨g, by rw [← hre]; exact h2, h3⟩
      · intro a l b ha hl hb
        exact cmp_not_lt hp ha hb (decide_eq_false (hbelow l (value_numLD hp ha).2 hl))
      · intro a l b ha hl hb
        exact cmp_not_gt hp ha hb (decide_eq_false (habove l (value_numLD hp ha).2 hl))
      · intro x hx
        obtain ⟨vs, h1, y, hy, h2⟩ := h.enum (deepCopy x) (by unfold has; rw [genum, hx]; rfl)
        rw [hs.choices x hx] at h1
        exact ⟨vs, h1, y, hy, veq_symm _ _ _ (by rw [← hpE]; exact h2)⟩
  · rintro ⟨hv, hm⟩
    refine ⟨?_, ?_, ?_, ?_, ?_, ?_, ?_, ?_, ?_, ?_⟩
    · intro t h
      unfold has at h
      rw [gtype] at h
      split at h
      · cases h
      · next e =>
        cases h
        rw [typeOk_str, hasType_fits (by omega) e hs.ty]
        exact hv
    · intro l h
      unfold has at h
      rw [genum] at h
      cases h1 : optGet c kEnum with
      | none => rw [h1] at h; cases h
      | some x =>
        rw [h1] at h; cases h
        rw [hs.choices x h1]
        obtain ⟨xs, rfl, y, hy, he⟩ := hm.enum x h1
        exact ⟨xs, rfl, y, hy, by rw [hpE]; exact veq_symm _ _ _ he⟩
    · intro hn l h
      have := gmin.symm.trans h
      exact ⟨hs.minimum l this, by rw [hpE]; exact hm.notBelow l hn this⟩
    · intro hn l h
      have := gmax.symm.trans h
      exact ⟨hs.maximum l this, by rw [hpE]; exact hm.notAbove l hn this⟩
    · rintro s rfl
      exact atLeast_of fun l h => ⟨hs.minLength l (gminl.symm.trans h), fun b hb => hm.minLength s l b rfl (gminl.symm.trans h) hb⟩
    · rintro s rfl
      exact atMost_of fun l h => ⟨hs.maxLength l (gmaxl.symm.trans h), fun b hb => hm.maxLength s l b rfl (gmaxl.symm.trans h) hb⟩
    · rintro s rfl x h
      have h1 := gpat.symm.trans h
      have h2 := hs.pattern x h1
      cases x <;> simp only [Val.ty, reduceCtorEq] at h2
      next pat =>
        obtain ⟨g, h3, h4⟩ := hm.pattern s (.str pat) pat rfl h1 rfl
        exact ⟨pat, g, rfl, by rw [hre]; exact h3, h4⟩
    · intro xs _ l h; exact absurd h (none_has gmini)
    · intro xs _ l h; exact absurd h (none_has gmaxi)
    · intro xs _ l h; exact absurd h (none_has gitems)

theorem get_countKey_self {w : World} {c : Config} {k k1 : Bytes} {m : List (Bytes × Val)} (h : AMap.get m k1 = none) (l : Val) :
    AMap.get (countKey w c k k1 m) k1 = some l ↔ optGet c k = some l ∧ cmp w.p l (.int 0) > 0 := by
  refine ⟨(get_countKey w c k k1 k1 m).2 l h, fun ⟨h1, h2⟩ => ?_⟩
  unfold countKey
  rw [h1]
  dsimp only
  rw [if_pos h2, AMap.get_set_self]

/-- The schema of an entry accepts exactly the values that suit the entry. -/
theorem valueSchema_iff {w : World} (hp : 64 ≤ w.p) {E : Env} (hE : SameWorld w E) {c : Config} (hs : Settings c) {r : Val}
    {m : List (Bytes × Val)} (hm : valueSchema w c = .ok (.map m))
    {fuel depth : Nat} (hfuel : 2 ≤ fuel) (hd : depth + 2 ≤ 100) : Acc (validate E fuel depth (.map m) r) ↔ Suits w c r := by
  obtain ⟨fuel, rfl⟩ : ∃ n, fuel = n + 2 := ⟨fuel - 2, by omega⟩
  rw [validate, if_neg (by unfold recursionLimit; omega), acc_body]
  obtain ⟨m', hm', q⟩ := valueSchema_keys (w := w) hs
  rw [hm] at hm'
  cases hm'
  have hq := headKeys c
  have hpE := hE.1
  unfold valueSchema at hm
  unfold Suits
  have none_has : ∀ {k x}, AMap.get m k = none → ¬ has m k x := by
    intro k x h1 h2; unfold has at h2; rw [h1] at h2; cases h2
  -- a schema with no keyword but a title, a description, a default, a type, a minimum and a list of values
  have plainLeaf : (∀ k, k ∉ [kTitle, kDescription, kDefault, kType, kMinimum, kEnum] → AMap.get m k = none) → ∀ {sub : Val → Val → Vd},
      (Valid E sub m r ↔ (∀ t, has m kType t → TypeOk E t r) ∧ (∀ v, has m kEnum v → ∃ vs, v = .list vs ∧ ∃ x ∈ vs, veq E.p x r = true) ∧
        (isNumber r = true → ∀ l, has m kMinimum l → isNumber l = true ∧ ¬ cmp E.p r l < 0)) := by
    intro hk sub
    rw [valid_leaf_iff q (fun s h => absurd h (none_has (hk _ (by decide))))]
    constructor
    · intro h; exact ⟨h.type, h.enum, h.min⟩
    · rintro ⟨h1, h2, h3⟩
      exact ⟨h1, h2, h3, fun _ l h => absurd h (none_has (hk _ (by decide))), fun _ _ l h => absurd h (none_has (hk _ (by decide))),
        fun _ _ l h => absurd h (none_has (hk _ (by decide))), fun _ _ l h => absurd h (none_has (hk _ (by decide))),
        fun _ _ l h => absurd h (none_has (hk _ (by decide))), fun _ _ l h => absurd h (none_has (hk _ (by decide))),
        fun _ _ l h => absurd h (none_has (hk _ (by decide)))⟩
  have head : ∀ k, k ∉ [kTitle, kDescription, kDefault, kType, kMinimum, kEnum] → k ∉ [kTitle, kDescription] := by
    intro k h h'; apply h; simp at h' ⊢; rcases h' with h' | h' <;> simp [h']
  cases ha : c.action <;> rw [ha] at hm <;> dsimp only at hm ⊢
  case store =>
    cases hm
    exact limitKeys_iff hp hE hs hq _ (.inr rfl)
  case storeConst =>
    obtain ⟨k, hk⟩ := hs.const ha
    have : getKeyC c.opt kConst = .ok k := by
      unfold optGet at hk
      unfold getKeyC
      cases ho : c.opt <;> rw [ho] at hk <;> simp only [getKey?, reduceCtorEq] at hk ⊢
      rw [hk]
    rw [this] at hm
    cases hm
    rw [plainLeaf (fun k h => by rw [get_set, if_neg (by rintro rfl; exact h (by decide)), hq k (head k h)])]
    constructor
    · rintro ⟨_, h, _⟩
      obtain ⟨vs, e, x, hx, h2⟩ := h _ (AMap.get_set_self ..)
      cases e
      cases List.mem_singleton.1 hx
      exact ⟨k, hk, hpE ▸ h2⟩
    · rintro ⟨k', h1, h2⟩
      rw [hk] at h1; cases h1
      refine ⟨?_, ?_, ?_⟩
      · intro t h; exact absurd h (none_has (by rw [get_set, if_neg (by decide), hq _ (by decide)]))
      · intro v h
        unfold has at h
        rw [AMap.get_set_self] at h
        cases h
        exact ⟨_, rfl, k, by simp, hpE ▸ h2⟩
      · intro _ t h; exact absurd h (none_has (by rw [get_set, if_neg (by decide), hq _ (by decide)]))
  case append =>
    have get0 : ∀ k, k ∉ [kTitle, kDescription] → k ≠ kDefault → AMap.get (copyDefault c (copyKey c kDescription (copyKey c kTitle []))) k = none := by
      intro k h1 h2
      unfold copyDefault
      split
      · rw [AMap.get_set_other _ _ _ _ h2]; exact hq k h1
      · exact hq k h1
    generalize copyDefault c (copyKey c kDescription (copyKey c kTitle [])) = m0 at hm get0
    cases hm
    have get1 : ∀ k, k ∉ [kTitle, kDescription] → k ≠ kDefault → k ≠ kMinItems → k ≠ kMaxItems → AMap.get
        (countKey w c kMaxArgs kMaxItems (countKey w c kMinArgs kMinItems (AMap.set m0 kItems (.map (limitKeys c []))))) k =
        if k = kItems then some (.map (limitKeys c [])) else none := by
      intro k h1 h2 h3 h4
      rw [(get_countKey ..).1 h4, (get_countKey ..).1 h3, get_set, get0 k h1 h2]
    have gi := get1 kItems (by decide) (by decide) (by decide) (by decide)
    rw [if_pos rfl] at gi
    have gmin : ∀ l, has (countKey w c kMaxArgs kMaxItems (countKey w c kMinArgs kMinItems (AMap.set m0 kItems (.map (limitKeys c []))))) kMinItems l ↔
        optGet c kMinArgs = some l ∧ cmp w.p l (.int 0) > 0 := by
      intro l
      unfold has
      rw [(get_countKey ..).1 (by decide)]
      exact get_countKey_self (by rw [AMap.get_set_other _ _ _ _ (by decide)]; exact get0 _ (by decide) (by decide)) l
    have gmax : ∀ l, has (countKey w c kMaxArgs kMaxItems (countKey w c kMinArgs kMinItems (AMap.set m0 kItems (.map (limitKeys c []))))) kMaxItems l ↔
        optGet c kMaxArgs = some l ∧ cmp w.p l (.int 0) > 0 := by
      intro l
      exact get_countKey_self (by rw [(get_countKey ..).1 (by decide), AMap.get_set_other _ _ _ _ (by decide)]; exact get0 _ (by decide) (by decide)) l
    rw [valid_leaf_iff q (fun s h => by unfold has at h; rw [gi] at h; cases h; nofun)]
    have item : ∀ x, sub (fun s d => validate E (fuel + 1) (depth + 1) s d) (.map (limitKeys c [])) x = .accept ↔ TypeFits c.ty x ∧ Meets w c x := by
      intro x
      show verdict (validate E (fuel + 1) (depth + 1) (.map (limitKeys c [])) x) = .accept ↔ _
      rw [verdict_accept, validate, if_neg (by unfold recursionLimit; omega), acc_body]
      exact limitKeys_iff hp hE hs (KeysIn.nil _) _ (.inl rfl)
    have no : ∀ k, k ∉ [kTitle, kDescription] → k ≠ kDefault → k ≠ kMinItems → k ≠ kMaxItems → k ≠ kItems → ∀ v, ¬ has
        (countKey w c kMaxArgs kMaxItems (countKey w c kMinArgs kMinItems (AMap.set m0 kItems (.map (limitKeys c []))))) k v := by
      intro k h1 h2 h3 h4 h5 v h
      unfold has at h
      rw [get1 k h1 h2 h3 h4, if_neg h5] at h
      cases h
    constructor
    · rintro h xs rfl
      refine ⟨fun y hy => (item y).1 (h.items xs rfl _ gi y hy), ?_, ?_⟩
      · intro l b hl hb
        by_cases hc : cmp w.p l (.int 0) > 0
        · exact (atLeast_iff fun l hl => hs.minArgs l ((gmin l).1 hl).1).1 (h.mini xs rfl) l b ((gmin l).2 ⟨hl, hc⟩) hb
        · have h1 := cmp_not_gt hp hb zero_value (decide_eq_false hc)
          have h2 := Int.mul_nonneg (Int.natCast_nonneg (size (.list xs))) (Int.le_of_lt (show (0 : Int) < 2 ^ 1074 from Int.pow_pos (by decide)))
          omega
      · intro l b hl hc hb
        exact (atMost_iff fun l hl => hs.maxArgs l ((gmax l).1 hl).1).1 (h.maxi xs rfl) l b ((gmax l).2 ⟨hl, hc⟩) hb
    · intro h
      refine ⟨?_, ?_, ?_, ?_, ?_, ?_, ?_, ?_, ?_, ?_⟩
      · intro v h; exact absurd h (no _ (by decide) (by decide) (by decide) (by decide) (by decide) _)
      · intro v h; exact absurd h (no _ (by decide) (by decide) (by decide) (by decide) (by decide) _)
      · intro _ v h; exact absurd h (no _ (by decide) (by decide) (by decide) (by decide) (by decide) _)
      · intro _ v h; exact absurd h (no _ (by decide) (by decide) (by decide) (by decide) (by decide) _)
      · intro _ _ v h; exact absurd h (no _ (by decide) (by decide) (by decide) (by decide) (by decide) _)
      · intro _ _ v h; exact absurd h (no _ (by decide) (by decide) (by decide) (by decide) (by decide) _)
      · intro _ _ v h; exact absurd h (no _ (by decide) (by decide) (by decide) (by decide) (by decide) _)
      · intro xs hx
        exact atLeast_of fun l hl => ⟨hs.minArgs l ((gmin l).1 hl).1, fun b hb => (h xs hx).2.1 l b ((gmin l).1 hl).1 hb⟩
      · intro xs hx
        exact atMost_of fun l hl => ⟨hs.maxArgs l ((gmax l).1 hl).1, fun b hb => (h xs hx).2.2 l b ((gmax l).1 hl).1 ((gmax l).1 hl).2 hb⟩
      · intro xs hx s hs' x hx'
        unfold has at hs'
        rw [gi] at hs'
        cases hs'
        exact (item x).2 ((h xs hx).1 x hx')
  case count =>
    cases hm
    have get1 : ∀ k, k ∉ [kTitle, kDescription] → AMap.get
        (AMap.set (AMap.set (copyKey c kDescription (copyKey c kTitle [])) kType (.str wInteger)) kMinimum (.int 0)) k =
        if k = kMinimum then some (.int 0) else if k = kType then some (.str wInteger) else none := by
      intro k h1
      rw [get_set, get_set, hq k h1]
    rw [plainLeaf (fun k h => by
      rw [get1 k (head k h), if_neg (by rintro rfl; exact h (by decide)), if_neg (by rintro rfl; exact h (by decide))])]
    have ht := hasType_fits (E := E) (ty := .int) (by omega) (by decide) (by decide) (v := r)
    constructor
    · rintro ⟨h1, _, h3⟩
      have h1 := h1 _ (get1 kType (by decide))
      rw [typeOk_str] at h1
      have hf := ht.1 h1
      refine ⟨hf, ?_⟩
      have hn : isNumber r = true := by
        rcases hf with (h | h) | ⟨_, h, _⟩ <;> cases r <;> simp [Val.ty] at h <;> rfl
      have := (h3 hn _ (get1 kMinimum (by decide))).2
      rwa [hpE] at this
    · rintro ⟨h1, h2⟩
      refine ⟨?_, ?_, ?_⟩
      · intro t h
        unfold has at h
        rw [get1 _ (by decide)] at h
        cases h
        exact typeOk_str.2 (ht.2 h1)
      · intro v h; unfold has at h; rw [get1 _ (by decide)] at h; cases h
      · intro _ l h
        unfold has at h
        rw [get1 _ (by decide)] at h
        cases h
        exact ⟨rfl, hpE ▸ h2⟩
  case storeTrue =>
    cases hm
    rw [plainLeaf (fun k h => by
      rw [get_copyKey, if_neg (by rintro rfl; exact h (by decide)), get_set, if_neg (by rintro rfl; exact h (by decide)), hq k (head k h)])]
    have gt : AMap.get (copyKey c kDefault (AMap.set (copyKey c kDescription (copyKey c kTitle [])) kType (.str wBoolean))) kType = some (.str wBoolean) := by
      rw [get_copyKey, if_neg (by decide), AMap.get_set_self]
    have no : ∀ k, k ∉ [kTitle, kDescription] → k ≠ kDefault → k ≠ kType →
        AMap.get (copyKey c kDefault (AMap.set (copyKey c kDescription (copyKey c kTitle [])) kType (.str wBoolean))) k = none := by
      intro k h1 h2 h3
      rw [get_copyKey, if_neg h2, get_set, if_neg h3, hq k h1]
    constructor
    · rintro ⟨h1, _⟩
      have h1 := typeOk_str.1 (h1 _ gt)
      have e : hasType E r (.str wBoolean) = some (r.ty == .bool) := rfl
      rw [e] at h1; simpa using h1
    · intro h
      refine ⟨?_, fun v h => absurd h (none_has (no _ (by decide) (by decide) (by decide))), fun _ v h => absurd h (none_has (no _ (by decide) (by decide) (by decide)))⟩
      intro t h'
      unfold has at h'
      rw [gt] at h'; cases h'
      exact boolType h
  case storeFalse =>
    cases hm
    rw [plainLeaf (fun k h => by
      rw [get_copyKey, if_neg (by rintro rfl; exact h (by decide)), get_set, if_neg (by rintro rfl; exact h (by decide)), hq k (head k h)])]
    have gt : AMap.get (copyKey c kDefault (AMap.set (copyKey c kDescription (copyKey c kTitle [])) kType (.str wBoolean))) kType = some (.str wBoolean) := by
      rw [get_copyKey, if_neg (by decide), AMap.get_set_self]
    have no : ∀ k, k ∉ [kTitle, kDescription] → k ≠ kDefault → k ≠ kType →
        AMap.get (copyKey c kDefault (AMap.set (copyKey c kDescription (copyKey c kTitle [])) kType (.str wBoolean))) k = none := by
      intro k h1 h2 h3
      rw [get_copyKey, if_neg h2, get_set, if_neg h3, hq k h1]
    constructor
    · rintro ⟨h1, _⟩
      have h1 := typeOk_str.1 (h1 _ gt)
      have e : hasType E r (.str wBoolean) = some (r.ty == .bool) := rfl
      rw [e] at h1; simpa using h1
    · intro h
      refine ⟨?_, fun v h => absurd h (none_has (no _ (by decide) (by decide) (by decide))), fun _ v h => absurd h (none_has (no _ (by decide) (by decide) (by decide)))⟩
      intro t h'
      unfold has at h'
      rw [gt] at h'; cases h'
      exact boolType h
  all_goals
    cases hm
    rw [plainLeaf (fun k h => hq k (head k h))]
    refine ⟨fun _ => trivial, fun _ => ⟨?_, ?_, ?_⟩⟩
    · intro t h; exact absurd h (none_has (hq _ (by decide)))
    · intro t h; exact absurd h (none_has (hq _ (by decide)))
    · intro _ t h; exact absurd h (none_has (hq _ (by decide)))

end Verif.Args
