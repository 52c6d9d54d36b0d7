import Verif.Conv.Params
import Verif.Conv.Props
/-!
# C92: parameters of the emitters
-/

namespace Verif.Conv
open Verif

/-! ## Specification -/

/-- What a parameter is: a truth value, a number from 0 to 2^32 - 1 or a number from -2^31 to 2^31 - 1. -/
inductive PTy where
  | flag | count | number
  deriving DecidableEq, Repr

/-- `x` is the setting a value asks for. -/
def Asks : PTy → Val → Val → Prop
  | .flag, v, x => ∃ b, Schema.asBool v = .ok b ∧ x = .bool b
  | .count, v, x => ∃ n : Nat, Means v n ∧ n < 2 ^ 32 ∧ x = .uint (UInt64.ofNat n)
  | .number, v, x => ∃ n : Int, Means v n ∧ -2 ^ 31 ≤ n ∧ n < 2 ^ 31 ∧ x = .int (Int64.ofInt n)

/-- Setting a parameter is what reading it shows, and no other parameter changes; an emitter has no parameters but those
of the table. -/
structure Settable (get : C → Bytes → Val) (set : C → Bytes → Val → Out C) (table : List (Bytes × PTy)) : Prop where
  set_get : ∀ c k ty v x, (k, ty) ∈ table → Asks ty v x → ∃ c', set c k v = .ok c' ∧ get c' k = x ∧ ∀ k', k' ≠ k → get c' k' = get c k'
  unknown : ∀ c k v, (∀ ty, (k, ty) ∉ table) → get c k = .null ∧ ∃ c', set c k v = .ok c' ∧ ∀ k', get c' k' = get c k'

/-- All the parameters at once. -/
def Lists (get : C → Bytes → Val) (all : C → Val) (table : List (Bytes × PTy)) : Prop :=
  ∀ c, ∃ m, all c = .map m ∧ AMap.Sorted m ∧ ∀ k, AMap.get m k = if k ∈ table.map (·.1) then some (get c k) else none

/-- After many settings: what was asked for, where something was. -/
def After (get : C → Bytes → Val) (table : List (Bytes × PTy)) (c : C) (m : List (Bytes × Val)) (c' : C) : Prop :=
  ∀ k, (∀ v ty, AMap.get m k = some v → (k, ty) ∈ table → Asks ty v (get c' k)) ∧
    ((AMap.get m k = none ∨ ∀ ty, (k, ty) ∉ table) → get c' k = get c k)

/-- Every entry of the map that is a parameter asks for a setting. -/
def AllAsk (table : List (Bytes × PTy)) (m : List (Bytes × Val)) : Prop :=
  ∀ k v ty, (k, v) ∈ m → (k, ty) ∈ table → ∃ x, Asks ty v x

/-- The parameters of the formats. -/
def jsonTable : List (Bytes × PTy) := [(kPretty, .flag), (kIndent, .count), (kPrecision, .count)]
def xmlTable : List (Bytes × PTy) := [(kPretty, .flag), (kIndent, .count), (kPrecision, .count)]
def bundleTable : List (Bytes × PTy) := [(kPrecision, .count)]

/-! ## Conversions -/

theorem asU32_asks {v x : Val} (h : Asks .count v x) : ∃ n : UInt32, asU32 v = .ok n ∧ ofU32 n = x := by
  obtain ⟨n, hm, hn, rfl⟩ := h
  refine ⟨UInt32.ofNat n, ?_, ?_⟩
  · unfold asU32
    rw [asUnsigned_means hm (by omega), Out.map_ok, Int.toNat_natCast]
    congr 1
    apply UInt32.toNat_inj.1
    simp
  · simp only [ofU32, Val.uint.injEq]
    apply UInt64.toNat_inj.1
    simp
    omega

theorem asI32_asks {v x : Val} (h : Asks .number v x) : ∃ n : Int32, asI32 v = .ok n ∧ ofI32 n = x := by
  obtain ⟨n, hm, h1, h2, rfl⟩ := h
  refine ⟨Int32.ofInt n, ?_, ?_⟩
  · unfold asI32
    rw [asInt_means hm (by omega), Out.map_ok]
    congr 1
    apply Int32.toInt_inj.1
    simp
  · simp only [ofI32, Val.int.injEq]
    apply Int64.toInt_inj.1
    rw [Int32.toInt_toInt64, Int32.toInt_ofInt_of_le (by omega) (by omega), Int64.toInt_ofInt_of_le (by omega) (by omega)]

theorem ofU32_asks (n : UInt32) : Asks .count (ofU32 n) (ofU32 n) := by
  refine ⟨n.toNat, ?_, n.toNat_lt, ?_⟩
  · have := Means.uint n.toUInt64
    simpa [ofU32] using this
  · simp only [ofU32, Val.uint.injEq]
    apply UInt64.toNat_inj.1
    have := n.toNat_lt
    simp

theorem flag_asks (b : Bool) : Asks .flag (.bool b) (.bool b) := ⟨b, rfl, rfl⟩

theorem asks_one {ty : PTy} {v x : Val} (h : Asks ty v x) : ∀ y, Asks ty v y → y = x := by
  intro y hy
  cases ty with
  | flag =>
    obtain ⟨b, h1, rfl⟩ := h
    obtain ⟨b', h2, rfl⟩ := hy
    rw [h1] at h2; cases h2; rfl
  | count =>
    obtain ⟨n, h1, h2⟩ := asU32_asks h
    obtain ⟨n', h3, h4⟩ := asU32_asks hy
    rw [h1] at h3; cases h3; rw [← h2, ← h4]
  | number =>
    obtain ⟨n, h1, h2⟩ := asI32_asks h
    obtain ⟨n', h3, h4⟩ := asI32_asks hy
    rw [h1] at h3; cases h3; rw [← h2, ← h4]

/-! ## Many settings -/

theorem get_none {m : List (Bytes × α)} {k : Bytes} (h : k ∉ m.map (·.1)) : AMap.get m k = none := by
  induction m with
  | nil => rfl
  | cons e m ih =>
    simp only [List.map_cons, List.mem_cons, not_or] at h
    rw [AMap.get, if_neg (fun e => h.1 e.symm), ih h.2]

theorem sorted_nodup {m : List (Bytes × α)} (h : AMap.Sorted m) : (m.map (·.1)).Nodup := by
  induction m with
  | nil => exact .nil
  | cons e m ih =>
    rw [List.map_cons, List.nodup_cons]
    refine ⟨fun hm => ?_, ih h.2⟩
    obtain ⟨p, hp, e2⟩ := List.mem_map.1 hm
    have := keyLt_ne (h.1 p hp)
    exact this e2.symm

theorem setAll_after {get : C → Bytes → Val} {set : C → Bytes → Val → Out C} {table : List (Bytes × PTy)} (hs : Settable get set table) :
    ∀ (m : List (Bytes × Val)) (c : C), (m.map (·.1)).Nodup → AllAsk table m → ∃ c', setAll set c m = (c', .ok ()) ∧ After get table c m c'
  | [], c, _, _ => ⟨c, rfl, fun k => ⟨fun v ty h => by simp [AMap.get] at h, fun _ => rfl⟩⟩
  | (k0, v0) :: m, c, hd, ha => by
    rw [List.map_cons, List.nodup_cons] at hd
    have step : ∃ c1, set c k0 v0 = .ok c1 ∧ (∀ ty, (k0, ty) ∈ table → Asks ty v0 (get c1 k0)) ∧
        ((∀ ty, (k0, ty) ∉ table) → get c1 k0 = get c k0) ∧ ∀ k, k ≠ k0 → get c1 k = get c k := by
      by_cases hk : ∃ ty, (k0, ty) ∈ table
      · obtain ⟨ty, hk⟩ := hk
        obtain ⟨x, hx⟩ := ha k0 v0 ty (.head _) hk
        obtain ⟨c1, h1, h2, h3⟩ := hs.set_get c k0 ty v0 x hk hx
        refine ⟨c1, h1, fun ty' h => ?_, fun h => absurd hk (h ty), h3⟩
        obtain ⟨x', hx'⟩ := ha k0 v0 ty' (.head _) h
        obtain ⟨c2, h4, h5, _⟩ := hs.set_get c k0 ty' v0 x' h hx'
        rw [h1] at h4; cases h4
        rw [h5]; exact hx'
      · have hk' : ∀ ty, (k0, ty) ∉ table := fun ty h => hk ⟨ty, h⟩
        obtain ⟨_, c1, h1, h2⟩ := hs.unknown c k0 v0 hk'
        exact ⟨c1, h1, fun ty h => absurd h (hk' ty), fun _ => h2 k0, fun k _ => h2 k⟩
    obtain ⟨c1, h1, h2, h3, h4⟩ := step
    obtain ⟨c', h5, h6⟩ := setAll_after hs m c1 hd.2 (fun k v ty hm => ha k v ty (.tail _ hm))
    refine ⟨c', by rw [setAll, h1]; exact h5, fun k => ?_⟩
    by_cases hk : k = k0
    · subst hk
      have hn : AMap.get m k = none := get_none hd.1
      have e := (h6 k).2 (.inl hn)
      refine ⟨fun v ty hv ht => ?_, fun h => ?_⟩
      · rw [AMap.get, if_pos rfl] at hv; cases hv
        rw [e]; exact h2 ty ht
      · rw [AMap.get, if_pos rfl] at h
        rw [e]; exact h3 (h.resolve_left (by simp))
    · have hg : AMap.get ((k0, v0) :: m) k = AMap.get m k := by rw [AMap.get, if_neg (fun e => hk e.symm)]
      rw [hg]
      refine ⟨(h6 k).1, fun h => ?_⟩
      rw [(h6 k).2 h, h4 k hk]

/-! ## The emitters -/

theorem json_settable : Settable JCfg.get JCfg.set jsonTable where
  set_get c k ty v x hk h := by
    simp only [jsonTable, List.mem_cons, Prod.mk.injEq, List.mem_nil_iff, or_false] at hk
    rcases hk with ⟨rfl, rfl⟩ | ⟨rfl, rfl⟩ | ⟨rfl, rfl⟩
    · obtain ⟨b, hb, rfl⟩ := h
      refine ⟨{ c with pretty := b }, by simp [JCfg.set, hb], by simp [JCfg.get], fun k' hk' => by simp [JCfg.get, hk']⟩
    · obtain ⟨n, hn, rfl⟩ := asU32_asks h
      refine ⟨{ c with indent := n }, ?_, ?_, fun k' hk' => by simp [JCfg.get, hk']⟩
      · rw [JCfg.set, if_neg (by decide), if_pos rfl, hn]; rfl
      · rw [JCfg.get, if_neg (by decide), if_pos rfl]
    · obtain ⟨n, hn, rfl⟩ := asU32_asks h
      refine ⟨{ c with precision := n }, ?_, ?_, fun k' hk' => by simp [JCfg.get, hk']⟩
      · rw [JCfg.set, if_neg (by decide), if_neg (by decide), if_pos rfl, hn]; rfl
      · rw [JCfg.get, if_neg (by decide), if_neg (by decide), if_pos rfl]
  unknown c k v h := by
    have h1 : k ≠ kPretty := by rintro rfl; exact h .flag (by simp [jsonTable])
    have h2 : k ≠ kIndent := by rintro rfl; exact h .count (by simp [jsonTable])
    have h3 : k ≠ kPrecision := by rintro rfl; exact h .count (by simp [jsonTable])
    exact ⟨by simp [JCfg.get, h1, h2, h3], c, by simp [JCfg.set, h1, h2, h3], fun _ => rfl⟩

theorem xml_settable : Settable XCfg.get XCfg.set xmlTable where
  set_get c k ty v x hk h := by
    simp only [xmlTable, List.mem_cons, Prod.mk.injEq, List.mem_nil_iff, or_false] at hk
    rcases hk with ⟨rfl, rfl⟩ | ⟨rfl, rfl⟩ | ⟨rfl, rfl⟩
    · obtain ⟨b, hb, rfl⟩ := h
      exact ⟨XCfg.update { c with pretty := b }, by simp [XCfg.set, hb], by simp [XCfg.get, XCfg.update], fun k' hk' => by simp [XCfg.get, XCfg.update, hk']⟩
    · obtain ⟨n, hn, rfl⟩ := asU32_asks h
      refine ⟨XCfg.update { c with indent := n }, ?_, ?_, fun k' hk' => by simp [XCfg.get, XCfg.update, hk']⟩
      · rw [XCfg.set, if_neg (by decide), if_pos rfl, hn]; rfl
      · rw [XCfg.get, if_neg (by decide), if_pos rfl]; rfl
    · obtain ⟨n, hn, rfl⟩ := asU32_asks h
      refine ⟨XCfg.update { c with precision := n }, ?_, ?_, fun k' hk' => by simp [XCfg.get, XCfg.update, hk']⟩
      · rw [XCfg.set, if_neg (by decide), if_neg (by decide), if_pos rfl, hn]; rfl
      · rw [XCfg.get, if_neg (by decide), if_neg (by decide), if_pos rfl]; rfl
  unknown c k v h := by
    have h1 : k ≠ kPretty := by rintro rfl; exact h .flag (by simp [xmlTable])
    have h2 : k ≠ kIndent := by rintro rfl; exact h .count (by simp [xmlTable])
    have h3 : k ≠ kPrecision := by rintro rfl; exact h .count (by simp [xmlTable])
    exact ⟨by simp [XCfg.get, h1, h2, h3], XCfg.update c, by simp [XCfg.set, h1, h2, h3], fun _ => by simp [XCfg.get, XCfg.update]⟩

theorem bundle_settable : Settable BCfg.get BCfg.set bundleTable where
  set_get c k ty v x hk h := by
    simp only [bundleTable, List.mem_cons, Prod.mk.injEq, List.mem_nil_iff, or_false] at hk
    obtain ⟨rfl, rfl⟩ := hk
    obtain ⟨n, hn, rfl⟩ := asU32_asks h
    exact ⟨⟨n⟩, by simp [BCfg.set, hn], by simp [BCfg.get], fun k' hk' => by simp [BCfg.get, hk']⟩
  unknown c k v h := by
    have h3 : k ≠ kPrecision := by rintro rfl; exact h .count (by simp [bundleTable])
    exact ⟨by simp [BCfg.get, h3], c, by simp [BCfg.set, h3], fun _ => rfl⟩

/-- C92.  The parameters of JSON, XML and bundle header emitters can be set and read, one by one, without touching one
another; other names are ignored and read as null. -/
theorem params_settable : Settable JCfg.get JCfg.set jsonTable ∧ Settable XCfg.get XCfg.set xmlTable ∧ Settable BCfg.get BCfg.set bundleTable :=
  ⟨json_settable, xml_settable, bundle_settable⟩

/-- An indentation of 2, written as a text. -/
example : (kIndent, PTy.count) ∈ jsonTable ∧ Asks .count (.str [50]) (.uint 2) :=
  ⟨by simp [jsonTable], 2, .str ⟨[], [], [50], [], rfl, by simp [Guess.Blank], .inl rfl, ⟨by simp, by decide⟩, by simp, by decide⟩, by decide, rfl⟩

theorem three_lists {get : C → Bytes → Val} {c : C} {b : Val} {i p : Val} (h1 : get c kPretty = b) (h2 : get c kIndent = i) (h3 : get c kPrecision = p) :
    AMap.Sorted (AMap.set (AMap.set (AMap.set [] kPretty b) kIndent i) kPrecision p) ∧
    ∀ k, AMap.get (AMap.set (AMap.set (AMap.set [] kPretty b) kIndent i) kPrecision p) k =
      if k ∈ ([kPretty, kIndent, kPrecision] : List Bytes) then some (get c k) else none := by
  refine ⟨AMap.sorted_set (AMap.sorted_set (AMap.sorted_set (m := []) trivial _ _) _ _) _ _, fun k => ?_⟩
  by_cases e3 : k = kPrecision
  · subst e3; rw [AMap.get_set_self, h3]; simp
  · rw [AMap.get_set_other _ _ _ _ e3]
    by_cases e2 : k = kIndent
    · subst e2; rw [AMap.get_set_self, h2]; simp
    · rw [AMap.get_set_other _ _ _ _ e2]
      by_cases e1 : k = kPretty
      · subst e1; rw [AMap.get_set_self, h1]; simp
      · rw [AMap.get_set_other _ _ _ _ e1]; simp [AMap.get, e1, e2, e3]

/-- C92.  `GetParams` gives the same as reading each parameter. -/
theorem params_listed : Lists JCfg.get JCfg.all jsonTable ∧ Lists XCfg.get XCfg.all xmlTable ∧ Lists BCfg.get BCfg.all bundleTable := by
  refine ⟨fun c => ⟨_, rfl, three_lists (get := JCfg.get) (c := c) ?_ ?_ ?_⟩, fun c => ⟨_, rfl, three_lists (get := XCfg.get) (c := c) ?_ ?_ ?_⟩,
    fun c => ⟨_, rfl, ?_, fun k => ?_⟩⟩
  · simp [JCfg.get]
  · rw [JCfg.get, if_neg (by decide), if_pos rfl]
  · rw [JCfg.get, if_neg (by decide), if_neg (by decide), if_pos rfl]
  · simp [XCfg.get]
  · rw [XCfg.get, if_neg (by decide), if_pos rfl]
  · rw [XCfg.get, if_neg (by decide), if_neg (by decide), if_pos rfl]
  · simp [AMap.Sorted, AMap.above]
  · by_cases e : k = kPrecision
    · subst e; simp [AMap.get, bundleTable, BCfg.get]
    · simp [AMap.get, bundleTable, e, Ne.symm e]

/-- C92.  `SetParams` of a map sets what each of its entries asks for and nothing else, and does not fail if every entry
that is a parameter asks for a setting. -/
theorem params_set_many (m : List (Bytes × Val)) (hm : AMap.Sorted m) :
    (∀ c, AllAsk jsonTable m → ∃ c', setParams JCfg.set c (.map m) = (c', .ok ()) ∧ After JCfg.get jsonTable c m c') ∧
    (∀ c, AllAsk xmlTable m → ∃ c', setParams XCfg.set c (.map m) = (c', .ok ()) ∧ After XCfg.get xmlTable c m c') ∧
    (∀ c, AllAsk bundleTable m → ∃ c', setParams BCfg.set c (.map m) = (c', .ok ()) ∧ After BCfg.get bundleTable c m c') :=
  ⟨fun c h => setAll_after json_settable m c (sorted_nodup hm) h, fun c h => setAll_after xml_settable m c (sorted_nodup hm) h,
    fun c h => setAll_after bundle_settable m c (sorted_nodup hm) h⟩

/-- Restoring what `GetParams` gave, for any emitter whose settings ask for themselves. -/
theorem restore {get : C → Bytes → Val} {set : C → Bytes → Val → Out C} {all : C → Val} {table : List (Bytes × PTy)} (hs : Settable get set table)
    (hl : Lists get all table) (hself : ∀ c k ty, (k, ty) ∈ table → Asks ty (get c k) (get c k)) (c d : C) :
    ∃ d', setParams set d (all c) = (d', .ok ()) ∧ ∀ k, get d' k = get c k := by
  obtain ⟨m, e, hm, hg⟩ := hl c
  have hv : ∀ k v, (k, v) ∈ m → v = get c k := by
    intro k v h
    have h1 := AMap.get_of_mem hm h
    rw [hg k] at h1
    split at h1
    · cases h1; rfl
    · cases h1
  obtain ⟨d', h1, h2⟩ := setAll_after hs m d (sorted_nodup hm) (fun k v ty h ht => ⟨v, by rw [hv k v h]; exact hself c k ty ht⟩)
  refine ⟨d', by rw [e]; exact h1, fun k => ?_⟩
  by_cases hk : k ∈ table.map (·.1)
  · obtain ⟨⟨k', ty⟩, ht, rfl⟩ := List.mem_map.1 hk
    have h3 := hg k'
    rw [if_pos hk] at h3
    exact asks_one (hself c k' ty ht) _ ((h2 k').1 _ ty h3 ht)
  · have hk' : ∀ ty, (k, ty) ∉ table := fun ty h => hk (List.mem_map.2 ⟨_, h, rfl⟩)
    rw [(hs.unknown d' k .null hk').1, (hs.unknown c k .null hk').1]

theorem self_three {get : C → Bytes → Val} {c : C} {table : List (Bytes × PTy)} (ht : table = [(kPretty, .flag), (kIndent, .count), (kPrecision, .count)])
    {b : Bool} {i p : UInt32} (h1 : get c kPretty = .bool b) (h2 : get c kIndent = ofU32 i) (h3 : get c kPrecision = ofU32 p) :
    ∀ k ty, (k, ty) ∈ table → Asks ty (get c k) (get c k) := by
  subst ht
  intro k ty hk
  simp only [List.mem_cons, Prod.mk.injEq, List.mem_nil_iff, or_false] at hk
  rcases hk with ⟨rfl, rfl⟩ | ⟨rfl, rfl⟩ | ⟨rfl, rfl⟩
  · rw [h1]; exact flag_asks b
  · rw [h2]; exact ofU32_asks i
  · rw [h3]; exact ofU32_asks p

/-- C92.  Giving an emitter the parameters read off another makes all its parameters read the same. -/
theorem params_restored :
    (∀ c d : JCfg, ∃ d', setParams JCfg.set d c.all = (d', .ok ()) ∧ ∀ k, d'.get k = c.get k) ∧
    (∀ c d : XCfg, ∃ d', setParams XCfg.set d c.all = (d', .ok ()) ∧ ∀ k, d'.get k = c.get k) ∧
    (∀ c d : BCfg, ∃ d', setParams BCfg.set d c.all = (d', .ok ()) ∧ ∀ k, d'.get k = c.get k) := by
  refine ⟨restore json_settable params_listed.1 (fun c => self_three rfl (b := c.pretty) (i := c.indent) (p := c.precision) ?_ ?_ ?_),
    restore xml_settable params_listed.2.1 (fun c => self_three rfl (b := c.pretty) (i := c.indent) (p := c.precision) ?_ ?_ ?_),
    restore bundle_settable params_listed.2.2 (fun c k ty hk => ?_)⟩
  · simp [JCfg.get]
  · rw [JCfg.get, if_neg (by decide), if_pos rfl]
  · rw [JCfg.get, if_neg (by decide), if_neg (by decide), if_pos rfl]
  · simp [XCfg.get]
  · rw [XCfg.get, if_neg (by decide), if_pos rfl]
  · rw [XCfg.get, if_neg (by decide), if_neg (by decide), if_pos rfl]
  · simp only [bundleTable, List.mem_cons, Prod.mk.injEq, List.mem_nil_iff, or_false] at hk
    obtain ⟨rfl, rfl⟩ := hk
    have : BCfg.get c kPrecision = ofU32 c.precision := by simp [BCfg.get]
    rw [this]; exact ofU32_asks _

/-- C92.  A `SetParams` that throws has set the entries before the one it throws for, and nothing else. -/
theorem params_failed {C : Type} (set : C → Bytes → Val → Out C) (m : List (Bytes × Val)) (c c' : C) (e : Err)
    (h : setParams set c (.map m) = (c', .throw e)) :
    ∃ a k v b, m = a ++ (k, v) :: b ∧ setParams set c (.map a) = (c', .ok ()) ∧ set c' k v = .throw e := by
  change setAll set c m = _ at h
  show ∃ a k v b, m = a ++ (k, v) :: b ∧ setAll set c a = (c', .ok ()) ∧ set c' k v = .throw e
  induction m generalizing c with
  | nil => simp [setAll] at h
  | cons x m ih =>
    obtain ⟨k, v⟩ := x
    rw [setAll] at h
    cases hs : set c k v with
    | ok c1 =>
      rw [hs] at h
      obtain ⟨a, k', v', b, rfl, h2, h3⟩ := ih c1 h
      exact ⟨(k, v) :: a, k', v', b, rfl, by rw [setAll, hs]; exact h2, h3⟩
    | throw e' =>
      rw [hs] at h
      simp only [Prod.mk.injEq, Out.throw.injEq] at h
      obtain ⟨rfl, rfl⟩ := h
      exact ⟨[], k, v, m, rfl, rfl, hs⟩
    | ub => rw [hs] at h; simp at h

/-- An indentation that is a list. -/
example : setParams JCfg.set ⟨false, false, 4, 17⟩ (.map [(kIndent, .list []), (kPretty, .bool true)]) = (⟨false, false, 4, 17⟩, .throw .unableToConvert) := by
  decide

theorem getInto_asks {f : Val → Out α} {m : List (Bytes × Val)} {k : Bytes} {d : α} (g : α → Val)
    (hf : ∀ v, AMap.get m k = some v → ∃ x, f v = .ok x) :
    ∃ y, getInto f (.map m) k d = .ok y ∧ (∀ v, AMap.get m k = some v → f v = .ok y) ∧ (AMap.get m k = none → y = d) := by
  unfold getInto
  cases h : AMap.get m k with
  | none => exact ⟨d, by simp [h], by simp, fun _ => rfl⟩
  | some v =>
    obtain ⟨x, hx⟩ := hf v h
    exact ⟨x, by simp [h, hx], by simp [hx], by simp⟩

/-- What `getInto` does with one parameter, as settings. -/
theorem into_flag {m : List (Bytes × Val)} {table : List (Bytes × PTy)} {k : Bytes} (d : Bool) (ht : (k, PTy.flag) ∈ table) (ha : AllAsk table m) :
    ∃ b, getInto Schema.asBool (.map m) k d = .ok b ∧ (∀ v, AMap.get m k = some v → Asks .flag v (.bool b)) ∧ (AMap.get m k = none → b = d) := by
  obtain ⟨y, h1, h2, h3⟩ := getInto_asks (f := Schema.asBool) (m := m) (k := k) (d := d) .bool (fun v hv => by
    obtain ⟨x, b, hb, _⟩ := ha k v .flag (AMap.get_mem hv) ht
    exact ⟨b, hb⟩)
  exact ⟨y, h1, fun v hv => ⟨y, h2 v hv, rfl⟩, h3⟩

theorem into_count {m : List (Bytes × Val)} {table : List (Bytes × PTy)} {k : Bytes} (d : UInt32) (ht : (k, PTy.count) ∈ table) (ha : AllAsk table m) :
    ∃ n, getInto asU32 (.map m) k d = .ok n ∧ (∀ v, AMap.get m k = some v → Asks .count v (ofU32 n)) ∧ (AMap.get m k = none → n = d) := by
  obtain ⟨y, h1, h2, h3⟩ := getInto_asks (f := asU32) (m := m) (k := k) (d := d) ofU32 (fun v hv => by
    obtain ⟨x, hx⟩ := ha k v .count (AMap.get_mem hv) ht
    obtain ⟨n, hn, _⟩ := asU32_asks hx
    exact ⟨n, hn⟩)
  refine ⟨y, h1, fun v hv => ?_, h3⟩
  obtain ⟨x, hx⟩ := ha k v .count (AMap.get_mem hv) ht
  obtain ⟨n, hn, rfl⟩ := asU32_asks hx
  rw [h2 v hv] at hn; cases hn; exact hx

/-- "strict" is a parameter of the constructor only. -/
def newTable : List (Bytes × PTy) := (kStrict, .flag) :: jsonTable

theorem after_three {get : C → Bytes → Val} {c0 c : C} {m : List (Bytes × Val)} {b b0 : Bool} {i i0 p p0 : UInt32}
    (g1 : get c kPretty = .bool b) (g2 : get c kIndent = ofU32 i) (g3 : get c kPrecision = ofU32 p)
    (g4 : get c0 kPretty = .bool b0) (g5 : get c0 kIndent = ofU32 i0) (g6 : get c0 kPrecision = ofU32 p0)
    (gn : ∀ k, (∀ ty, (k, ty) ∉ jsonTable) → get c k = get c0 k)
    (h1 : (∀ v, AMap.get m kPretty = some v → Asks .flag v (.bool b)) ∧ (AMap.get m kPretty = none → b = b0))
    (h2 : (∀ v, AMap.get m kIndent = some v → Asks .count v (ofU32 i)) ∧ (AMap.get m kIndent = none → i = i0))
    (h3 : (∀ v, AMap.get m kPrecision = some v → Asks .count v (ofU32 p)) ∧ (AMap.get m kPrecision = none → p = p0)) :
    After get jsonTable c0 m c := by
  intro k
  refine ⟨fun v ty hv ht => ?_, fun h => ?_⟩
  · simp only [jsonTable, List.mem_cons, Prod.mk.injEq, List.mem_nil_iff, or_false] at ht
    rcases ht with ⟨rfl, rfl⟩ | ⟨rfl, rfl⟩ | ⟨rfl, rfl⟩
    · rw [g1]; exact h1.1 v hv
    · rw [g2]; exact h2.1 v hv
    · rw [g3]; exact h3.1 v hv
  · by_cases e1 : k = kPretty
    · subst e1
      rw [g1, g4, h1.2 (h.resolve_right (fun h => h .flag (by simp [jsonTable])))]
    · by_cases e2 : k = kIndent
      · subst e2
        rw [g2, g5, h2.2 (h.resolve_right (fun h => h .count (by simp [jsonTable])))]
      · by_cases e3 : k = kPrecision
        · subst e3
          rw [g3, g6, h3.2 (h.resolve_right (fun h => h .count (by simp [jsonTable])))]
        · exact gn k (fun ty h => by simp [jsonTable, e1, e2, e3] at h)

/-- C92.  An emitter made with parameters has what each entry asks for, and the defaults otherwise (no indentation, a width
of 4, 17 digits); JSON takes "strict" as well. -/
theorem params_constructed (m : List (Bytes × Val)) :
    (AllAsk newTable m → ∃ c, JCfg.new (.map m) = .ok c ∧ After JCfg.get jsonTable ⟨false, false, 4, 17⟩ m c ∧
      (∀ v, AMap.get m kStrict = some v → Schema.asBool v = .ok c.strict) ∧ (AMap.get m kStrict = none → c.strict = false)) ∧
    (AllAsk xmlTable m → ∃ c, XCfg.new (.map m) = .ok c ∧ After XCfg.get xmlTable ⟨false, 4, 17, 0⟩ m c) := by
  constructor
  · intro ha
    have ha' : AllAsk jsonTable m := fun k v ty h ht => ha k v ty h (.tail _ ht)
    obtain ⟨b, h1, h1'⟩ := into_flag (k := kPretty) false (by simp [jsonTable]) ha'
    obtain ⟨s, h0, h0'⟩ := into_flag (k := kStrict) (table := newTable) false (by simp [newTable]) ha
    obtain ⟨i, h2, h2'⟩ := into_count (k := kIndent) 4 (by simp [jsonTable]) ha'
    obtain ⟨p, h3, h3'⟩ := into_count (k := kPrecision) 17 (by simp [jsonTable]) ha'
    refine ⟨⟨b, s, i, p⟩, by simp [JCfg.new, h0, h1, h2, h3], ?_, ?_, h0'.2⟩
    · refine after_three (b := b) (i := i) (p := p) (b0 := false) (i0 := 4) (p0 := 17) ?_ ?_ ?_ ?_ ?_ ?_ (fun k hk => ?_) h1' h2' h3'
      · simp [JCfg.get]
      · rw [JCfg.get, if_neg (by decide), if_pos rfl]
      · rw [JCfg.get, if_neg (by decide), if_neg (by decide), if_pos rfl]
      · simp [JCfg.get]
      · rw [JCfg.get, if_neg (by decide), if_pos rfl]
      · rw [JCfg.get, if_neg (by decide), if_neg (by decide), if_pos rfl]
      · rw [(json_settable.unknown _ k .null hk).1, (json_settable.unknown _ k .null hk).1]
    · intro v hv
      obtain ⟨b', e1, e2⟩ := h0'.1 v hv
      cases e2; exact e1
  · intro ha
    obtain ⟨b, h1, h1'⟩ := into_flag (k := kPretty) false (by simp [xmlTable]) ha
    obtain ⟨i, h2, h2'⟩ := into_count (k := kIndent) 4 (by simp [xmlTable]) ha
    obtain ⟨p, h3, h3'⟩ := into_count (k := kPrecision) 17 (by simp [xmlTable]) ha
    refine ⟨XCfg.update ⟨b, i, p, 0⟩, by simp [XCfg.new, h1, h2, h3], ?_⟩
    refine after_three (b := b) (i := i) (p := p) (b0 := false) (i0 := 4) (p0 := 17) ?_ ?_ ?_ ?_ ?_ ?_ (fun k hk => ?_) h1' h2' h3'
    · simp [XCfg.get, XCfg.update]
    · rw [XCfg.get, if_neg (by decide), if_pos rfl]; rfl
    · rw [XCfg.get, if_neg (by decide), if_neg (by decide), if_pos rfl]; rfl
    · simp [XCfg.get]
    · rw [XCfg.get, if_neg (by decide), if_pos rfl]
    · rw [XCfg.get, if_neg (by decide), if_neg (by decide), if_pos rfl]
    · rw [(xml_settable.unknown _ k .null hk).1, (xml_settable.unknown _ k .null hk).1]

/-- {"indent": 2, "strict": true} meets the hypotheses. -/
example : AllAsk newTable [(kIndent, .int 2), (kStrict, .bool true)] := by
  intro k v ty h ht
  simp only [List.mem_cons, Prod.mk.injEq, List.mem_nil_iff, or_false] at h
  rcases h with ⟨rfl, rfl⟩ | ⟨rfl, rfl⟩
  · have : ty = .count := by revert ht; cases ty <;> decide
    subst this; exact ⟨_, 2, .int 2, by decide, rfl⟩
  · have : ty = .flag := by revert ht; cases ty <;> decide
    subst this; exact ⟨_, true, rfl, rfl⟩

/-- C92.  libxml2 always has the indentation the parameters say. -/
theorem xml_writer_follows : (∀ p c, XCfg.new p = .ok c → c.writer = if c.pretty then c.indent else 0) ∧
    ∀ c k v c', XCfg.set c k v = .ok c' → c'.writer = if c'.pretty then c'.indent else 0 := by
  have hu : ∀ c : XCfg, c.update.writer = if c.update.pretty then c.update.indent else 0 := fun _ => rfl
  constructor
  · intro p c h
    simp only [XCfg.new, Out.bind_eq_ok] at h
    obtain ⟨b, _, i, _, n, _, h⟩ := h
    cases h; exact hu _
  · intro c k v c' h
    unfold XCfg.set at h
    generalize (if k = kPretty then _ else _ : Out XCfg) = o at h
    cases o with
    | ok c1 => cases h; exact hu _
    | throw e => cases h
    | ub => cases h

/-! ## YAML -/

/-- The parameters of YAML emitters other than the styles. -/
def yamlTable : List (Bytes × PTy) := [(kBegin, .flag), (kEnd, .flag), (kIndent, .number), (kWidth, .number), (kPrecision, .count)]

/-- The styles in use. -/
def YCfg.styles (c : YCfg) : SStyle × Yaml.CStyle × Yaml.CStyle := (c.scalar, c.mapStyle, c.listStyle)

/-- C92, YAML.  Parameters other than styles can be set and read without touching the others; names that are no parameters
are ignored. -/
theorem yaml_params_partial (ft : UInt64 → Bytes) (c : YCfg) (k : Bytes) (v : Val) :
    (∀ ty x, (k, ty) ∈ yamlTable → Asks ty v x →
      ∃ c', YCfg.set ft c k v = .ok c' ∧ c'.get k = x ∧ (∀ k', k' ≠ k → c'.get k' = c.get k') ∧ c'.styles = c.styles) ∧
    (k ∉ yamlKeys → c.get k = .null ∧ YCfg.set ft c k v = .ok c) := by
  constructor
  · intro ty x hk h
    simp only [yamlTable, List.mem_cons, Prod.mk.injEq, List.mem_nil_iff, or_false] at hk
    rcases hk with ⟨rfl, rfl⟩ | ⟨rfl, rfl⟩ | ⟨rfl, rfl⟩ | ⟨rfl, rfl⟩ | ⟨rfl, rfl⟩
    · obtain ⟨b, hb, rfl⟩ := h
      refine ⟨{ c with implicitBegin := b }, ?_, ?_, fun k' hk' => by simp [YCfg.get, hk'], rfl⟩
      · rw [YCfg.set, if_neg (by decide), if_neg (by decide), if_neg (by decide), if_pos rfl, hb]; rfl
      · rw [YCfg.get, if_neg (by decide), if_neg (by decide), if_neg (by decide), if_pos rfl]
    · obtain ⟨b, hb, rfl⟩ := h
      refine ⟨{ c with implicitEnd := b }, ?_, ?_, fun k' hk' => by simp [YCfg.get, hk'], rfl⟩
      · rw [YCfg.set, if_neg (by decide), if_neg (by decide), if_neg (by decide), if_neg (by decide), if_pos rfl, hb]; rfl
      · rw [YCfg.get, if_neg (by decide), if_neg (by decide), if_neg (by decide), if_neg (by decide), if_pos rfl]
    · obtain ⟨n, hn, rfl⟩ := asI32_asks h
      refine ⟨{ c with indent := n }, ?_, ?_, fun k' hk' => by simp [YCfg.get, hk'], rfl⟩
      · rw [YCfg.set, if_neg (by decide), if_neg (by decide), if_neg (by decide), if_neg (by decide), if_neg (by decide), if_pos rfl, hn]; rfl
      · rw [YCfg.get, if_neg (by decide), if_neg (by decide), if_neg (by decide), if_neg (by decide), if_neg (by decide), if_pos rfl]
    · obtain ⟨n, hn, rfl⟩ := asI32_asks h
      refine ⟨{ c with width := n }, ?_, ?_, fun k' hk' => by simp [YCfg.get, hk'], rfl⟩
      · rw [YCfg.set, if_neg (by decide), if_neg (by decide), if_neg (by decide), if_neg (by decide), if_neg (by decide), if_neg (by decide), if_pos rfl, hn]; rfl
      · rw [YCfg.get, if_neg (by decide), if_neg (by decide), if_neg (by decide), if_neg (by decide), if_neg (by decide), if_neg (by decide), if_pos rfl]
    · obtain ⟨n, hn, rfl⟩ := asU32_asks h
      refine ⟨{ c with precision := n }, ?_, ?_, fun k' hk' => by simp [YCfg.get, hk'], rfl⟩
      · rw [YCfg.set, if_neg (by decide), if_neg (by decide), if_neg (by decide), if_neg (by decide), if_neg (by decide), if_neg (by decide),
          if_neg (by decide), if_pos rfl, hn]; rfl
      · rw [YCfg.get, if_neg (by decide), if_neg (by decide), if_neg (by decide), if_neg (by decide), if_neg (by decide), if_neg (by decide),
          if_neg (by decide), if_pos rfl]
  · intro hk
    simp only [yamlKeys, List.mem_cons, List.mem_nil_iff, or_false, not_or] at hk
    obtain ⟨h1, h2, h3, h4, h5, h6, h7, h8⟩ := hk
    exact ⟨by simp [YCfg.get, h1, h2, h3, h4, h5, h6, h7, h8], by simp [YCfg.set, h1, h2, h3, h4, h5, h6, h7, h8]⟩

/-- C92, YAML.  A style set by its name is the style used from then on; a name that is no style changes nothing. -/
theorem yaml_styles (ft : UInt64 → Bytes) (c : YCfg) :
    (∀ name st, (name, st) ∈ Conv.styles →
      YCfg.set ft c kMapStyle (.str name) = .ok { c with mapStyle := st } ∧ YCfg.set ft c kListStyle (.str name) = .ok { c with listStyle := st }) ∧
    (∀ name st, (name, st) ∈ scalarStyles → YCfg.set ft c kScalarStyle (.str name) = .ok { c with scalar := st }) ∧
    (∀ name, name ∉ Conv.styles.map (·.1) → YCfg.set ft c kMapStyle (.str name) = .ok c ∧ YCfg.set ft c kListStyle (.str name) = .ok c) := by
  have pick_none : ∀ name (old : Yaml.CStyle), name ∉ Conv.styles.map (·.1) → pick Conv.styles name old = old := by
    intro name old h
    have : Conv.styles.find? (fun e => e.1 == name) = none := by
      rw [List.find?_eq_none]
      intro e he h2
      exact h (List.mem_map.2 ⟨e, he, by simpa using h2⟩)
    simp [pick, this]
  refine ⟨fun name st h => ?_, fun name st h => ?_, fun name h => ?_⟩
  · simp only [Conv.styles, List.mem_cons, Prod.mk.injEq, List.mem_nil_iff, or_false] at h
    rcases h with ⟨rfl, rfl⟩ | ⟨rfl, rfl⟩ | ⟨rfl, rfl⟩ <;> exact ⟨rfl, rfl⟩
  · simp only [scalarStyles, List.mem_cons, Prod.mk.injEq, List.mem_nil_iff, or_false] at h
    rcases h with ⟨rfl, rfl⟩ | ⟨rfl, rfl⟩ | ⟨rfl, rfl⟩ | ⟨rfl, rfl⟩ | ⟨rfl, rfl⟩ | ⟨rfl, rfl⟩ <;> rfl
  · have e1 : YCfg.set ft c kMapStyle (.str name) = .ok { c with mapStyle := pick Conv.styles name c.mapStyle } := rfl
    have e2 : YCfg.set ft c kListStyle (.str name) = .ok { c with listStyle := pick Conv.styles name c.listStyle } := rfl
    rw [e1, e2, pick_none _ _ h, pick_none _ _ h]
    exact ⟨rfl, rfl⟩

/-- C92, YAML.  After a style was set, maps or lists start with it, whatever was set before; begins and ends of documents
are written with the flags that are read off the emitter. -/
theorem yaml_styles_written (ft : UInt64 → Bytes) (utf8 : Bytes → Bool) (c : YCfg) (e : Yaml.Em) (n : Int) :
    (∀ name st, (name, st) ∈ Conv.styles → ∃ c' c'', YCfg.set ft c kMapStyle (.str name) = .ok c' ∧ YCfg.set ft c kListStyle (.str name) = .ok c'' ∧
      Yaml.emit utf8 ft c'.conf e (.beginMap n) = Yaml.put c'.conf e (.mapStart st) ∧
      Yaml.emit utf8 ft c''.conf e (.beginList n) = Yaml.put c''.conf e (.seqStart st)) ∧
    c.get kBegin = .bool c.conf.implicitBegin ∧ c.get kEnd = .bool c.conf.implicitEnd := by
  refine ⟨fun name st h => ?_, rfl, rfl⟩
  obtain ⟨h1, h2⟩ := (yaml_styles ft c).1 name st h
  exact ⟨_, _, h1, h2, rfl, rfl⟩

/-! ## Findings -/

/-- C92, finding: the styles read off a YAML emitter are always "any", "block" and "flow", whatever is set, so giving an
emitter the parameters read off it changes the styles it writes with. -/
theorem yaml_styles_read_false (ft : UInt64 → Bytes) (c : YCfg) :
    c.get kMapStyle = .str [98, 108, 111, 99, 107] ∧ c.get kListStyle = .str [102, 108, 111, 119] ∧
    ∃ d, YCfg.setParams ft c c.all = (d, .ok ()) ∧ d.mapStyle = .block ∧ d.listStyle = .flow := by
  refine ⟨rfl, rfl, ?_⟩
  have hall : c.all = .map [(kBegin, .bool c.implicitBegin), (kEnd, .bool c.implicitEnd), (kIndent, ofI32 c.indent), (kListStyle, .str [102, 108, 111, 119]),
      (kMapStyle, .str [98, 108, 111, 99, 107]), (kPrecision, ofU32 c.precision), (kScalarStyle, .str [97, 110, 121]), (kWidth, ofI32 c.width)] := rfl
  rw [hall]
  refine ⟨_, rfl, rfl, rfl⟩

/-- C92, finding: "strict" can only be given to the constructor of a JSON emitter: setting it later is ignored, reading it
gives null. -/
theorem json_strict_false : (∀ c v, JCfg.set c kStrict v = .ok c ∧ c.get kStrict = .null) ∧
    ∃ c, JCfg.new (.map [(kStrict, .bool true)]) = .ok c ∧ c.strict = true := by
  refine ⟨fun c v => ⟨?_, ?_⟩, _, rfl, rfl⟩
  · rw [JCfg.set, if_neg (by decide), if_neg (by decide), if_neg (by decide)]
  · rw [JCfg.get, if_neg (by decide), if_neg (by decide), if_neg (by decide)]

/-- C92, finding: a bundle header emitter ignores the parameters it is made with. -/
theorem bundle_new_false (p : Val) : BCfg.new p = .ok ⟨17⟩ := rfl

/-- C92, finding: an indentation that does not fit 32 bits is cut without an exception. -/
theorem indent_cut_false : JCfg.set ⟨true, false, 4, 17⟩ kIndent (.uint 4294967298) = .ok ⟨true, false, 2, 17⟩ ∧
    JCfg.set ⟨true, false, 4, 17⟩ kIndent (.int (-1)) = .ok ⟨true, false, 4294967295, 17⟩ := by decide

end Verif.Conv
