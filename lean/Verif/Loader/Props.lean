import Verif.Loader.Model
import Verif.Loader.Spec
/-!
# C62-C63: registering schemas and normalising references
-/

namespace Verif.Loader
open Verif Uri Ext

theorem strAt_some {m : List (Bytes × Val)} {k s : Bytes} : strAt m k = some s ↔ StrAt m k s := by
  unfold strAt StrAt
  cases h : AMap.get m k with
  | none => simp
  | some v => cases v <;> simp

theorem strAt_none {m : List (Bytes × Val)} {k : Bytes} : strAt m k = none ↔ ∀ s, ¬ StrAt m k s := by
  constructor
  · intro h s hs
    rw [strAt_some.2 hs] at h; cases h
  · intro h
    cases he : strAt m k with
    | none => rfl
    | some s => exact absurd (strAt_some.1 he) (h s)

/-! ## Registering -/

theorem get_insertAll (m : Schemas) : ∀ (s : Schemas) (u : Bytes),
    AMap.get (insertAll s m) u = match AMap.get s u with | some v => some v | none => AMap.get m u := by
  induction m with
  | nil => intro s u; simp only [insertAll, AMap.get]; cases AMap.get s u <;> rfl
  | cons e m ih =>
    obtain ⟨k, v⟩ := e
    intro s u
    simp only [insertAll]
    rw [ih]
    by_cases hk : AMap.get s k = none
    · rw [if_pos hk]
      by_cases hu : u = k
      · subst hu
        rw [AMap.get_set_self, hk]
        simp [AMap.get]
      · rw [AMap.get_set_other _ _ _ _ hu]
        simp [AMap.get, Ne.symm hu]
    · rw [if_neg hk]
      by_cases hu : k = u
      · subst hu
        cases he : AMap.get s k with
        | none => exact absurd he hk
        | some x => rfl
      · simp [AMap.get, hu]

theorem trusted_iff {uri i : Bytes} : trusted uri i = true ↔
    ∃ rest, i = uri ++ rest ∧ (uri.getLast? = some 47 ∨ rest.head? = some 35 ∨ rest.head? = some 63) := by
  unfold trusted
  simp only [Bool.and_eq_true, Bool.or_eq_true, decide_eq_true_eq]
  constructor
  · rintro ⟨h1, h2⟩
    refine ⟨i.drop uri.length, ?_, by rcases h2 with (h | h) | h <;> simp [h]⟩
    conv => lhs; rw [← List.take_append_drop uri.length i, h1]
  · rintro ⟨rest, rfl, h⟩
    refine ⟨by simp, ?_⟩
    simp only [List.drop_left]
    rcases h with h | h | h <;> simp [h]

/-- What is in `acc` or found on the way. -/
def FoundIn (uri : Bytes) (acc : Schemas) (top : Val) (u : Bytes) (v : Val) : Prop :=
  AMap.get acc u = some v ∨ ∃ m, v = .map m ∧ Within top (.map m) ∧ StrAt m kId u ∧ trusted uri u = true

theorem get_addOwn {uri : Bytes} {acc : Schemas} {m : List (Bytes × Val)} :
    (∀ u v, AMap.get acc u = some v → AMap.get (addOwn uri acc m) u = some v) ∧
    (∀ u v, AMap.get (addOwn uri acc m) u = some v → AMap.get acc u = some v ∨ (v = .map m ∧ StrAt m kId u ∧ trusted uri u = true)) ∧
    (∀ u, StrAt m kId u → trusted uri u = true → AMap.get (addOwn uri acc m) u ≠ none) := by
  unfold addOwn
  cases hi : strAt m kId with
  | none =>
    exact ⟨fun _ _ h => h, fun _ _ h => .inl h, fun u hu _ => absurd hu (strAt_none.1 hi u)⟩
  | some i =>
    have hi' := strAt_some.1 hi
    dsimp only
    by_cases h : trusted uri i = true ∧ AMap.get acc i = none
    · rw [if_pos h]
      refine ⟨fun u v hu => ?_, fun u v hu => ?_, fun u hu _ => ?_⟩
      · rw [AMap.get_set_other _ _ _ _ (by rintro rfl; rw [h.2] at hu; cases hu)]; exact hu
      · by_cases e : u = i
        · subst e
          rw [AMap.get_set_self] at hu
          cases hu
          exact .inr ⟨rfl, hi', h.1⟩
        · rw [AMap.get_set_other _ _ _ _ e] at hu
          exact .inl hu
      · have : u = i := by
          unfold StrAt at hu hi'
          rw [hu] at hi'; cases hi'; rfl
        subst this
        rw [AMap.get_set_self]; nofun
    · rw [if_neg h]
      refine ⟨fun _ _ h => h, fun _ _ h => .inl h, fun u hu ht => ?_⟩
      have : u = i := by
        unfold StrAt at hu hi'
        rw [hu] at hi'; cases hi'; rfl
      subst this
      exact fun hn => h ⟨ht, hn⟩

theorem within_step {k : Bytes} {x : Val} {m : List (Bytes × Val)} (h : k ≠ kEnum) (hm : (k, x) ∈ m) {w : Val} (hw : Within x w) :
    Within (.map m) w := .step hm h hw

mutual
theorem search_spec (uri : Bytes) : ∀ (v : Val) (acc : Schemas),
    (∀ u x, AMap.get acc u = some x → AMap.get (search uri acc v) u = some x) ∧
    (∀ u x, AMap.get (search uri acc v) u = some x → FoundIn uri acc v u x) ∧
    (∀ u m, Within v (.map m) → StrAt m kId u → trusted uri u = true → AMap.get (search uri acc v) u ≠ none)
  | .map m, acc => by
    obtain ⟨a1, a2, a3⟩ := get_addOwn (uri := uri) (acc := acc) (m := m)
    obtain ⟨b1, b2, b3⟩ := searchMap_spec uri m (addOwn uri acc m)
    simp only [search]
    refine ⟨fun u x h => b1 _ _ (a1 _ _ h), fun u x h => ?_, fun u m' hw hs ht => ?_⟩
    · rcases b2 u x h with h | ⟨k, y, m', hk, hy, rfl, hw, hs, ht⟩
      · rcases a2 u x h with h | ⟨rfl, hs, ht⟩
        · exact .inl h
        · exact .inr ⟨m, rfl, .here _, hs, ht⟩
      · exact .inr ⟨m', rfl, .step hy hk hw, hs, ht⟩
    · cases hw with
      | here =>
        cases hx : AMap.get (addOwn uri acc m) u with
        | none => exact absurd hx (a3 u hs ht)
        | some x => rw [b1 _ _ hx]; nofun
      | step hm hk hw => exact b3 _ _ u m' hm hk hw hs ht
  | .null, acc => search_other uri acc (by nofun) rfl
  | .bool _, acc => search_other uri acc (by nofun) rfl
  | .int _, acc => search_other uri acc (by nofun) rfl
  | .uint _, acc => search_other uri acc (by nofun) rfl
  | .flt _, acc => search_other uri acc (by nofun) rfl
  | .str _, acc => search_other uri acc (by nofun) rfl
  | .list _, acc => search_other uri acc (by nofun) rfl
  | .blob _, acc => search_other uri acc (by nofun) rfl
theorem search_other (uri : Bytes) {v : Val} (acc : Schemas) (hv : ∀ m, v ≠ .map m) (he : search uri acc v = acc) :
    (∀ u x, AMap.get acc u = some x → AMap.get (search uri acc v) u = some x) ∧
    (∀ u x, AMap.get (search uri acc v) u = some x → FoundIn uri acc v u x) ∧
    (∀ u m, Within v (.map m) → StrAt m kId u → trusted uri u = true → AMap.get (search uri acc v) u ≠ none) := by
  rw [he]
  refine ⟨fun _ _ h => h, fun _ _ h => .inl h, fun u m hw _ _ => ?_⟩
  cases hw with
  | here => exact absurd rfl (hv m)
  | step => exact absurd rfl (hv _)
theorem searchMap_spec (uri : Bytes) : ∀ (m : List (Bytes × Val)) (acc : Schemas),
    (∀ u x, AMap.get acc u = some x → AMap.get (searchMap uri acc m) u = some x) ∧
    (∀ u x, AMap.get (searchMap uri acc m) u = some x → AMap.get acc u = some x ∨
      ∃ k y m', k ≠ kEnum ∧ (k, y) ∈ m ∧ x = .map m' ∧ Within y (.map m') ∧ StrAt m' kId u ∧ trusted uri u = true) ∧
    (∀ k y u m', (k, y) ∈ m → k ≠ kEnum → Within y (.map m') → StrAt m' kId u → trusted uri u = true → AMap.get (searchMap uri acc m) u ≠ none)
  | [], acc => by
    simp only [searchMap]
    exact ⟨fun _ _ h => h, fun _ _ h => .inl h, fun _ _ _ _ h => by cases h⟩
  | (k, v) :: m, acc => by
    obtain ⟨a1, a2, a3⟩ := search_spec uri v acc
    simp only [searchMap]
    by_cases hk : k ≠ kEnum
    · rw [if_pos hk]
      obtain ⟨b1, b2, b3⟩ := searchMap_spec uri m (search uri acc v)
      refine ⟨fun u x h => b1 _ _ (a1 _ _ h), fun u x h => ?_, fun k' y u m' hy hk' hw hs ht => ?_⟩
      · rcases b2 u x h with h | ⟨k', y, m', h1, h2, h3⟩
        · rcases a2 u x h with h | ⟨m', h1, h2⟩
          · exact .inl h
          · exact .inr ⟨k, v, m', hk, .head _, h1, h2⟩
        · exact .inr ⟨k', y, m', h1, .tail _ h2, h3⟩
      · cases hy with
        | head =>
          cases hx : AMap.get (search uri acc v) u with
          | none => exact absurd hx (a3 u m' hw hs ht)
          | some x => rw [b1 _ _ hx]; nofun
        | tail _ hy => exact b3 k' y u m' hy hk' hw hs ht
    · rw [if_neg hk]
      obtain ⟨b1, b2, b3⟩ := searchMap_spec uri m acc
      refine ⟨b1, fun u x h => ?_, fun k' y u m' hy hk' hw hs ht => ?_⟩
      · rcases b2 u x h with h | ⟨k', y, m', h1, h2, h3⟩
        · exact .inl h
        · exact .inr ⟨k', y, m', h1, .tail _ h2, h3⟩
      · cases hy with
        | head => exact absurd hk' hk
        | tail _ hy => exact b3 k' y u m' hy hk' hw hs ht
end

/-- C62.  Adding a schema leaves every schema known before as it was. -/
theorem add_keeps (s : Schemas) (uri : Bytes) (v : Val) (u : Bytes) (x : Val) (h : AMap.get s u = some x) :
    AMap.get (addSchema s uri v) u = some x := by
  unfold addSchema
  rw [get_insertAll, h]

theorem get_found {uri : Bytes} {v : Val} : AMap.get (found uri v) (resolveURI uri []) = some (norm (resolveURI uri []) v) := by
  unfold found
  exact (search_spec _ _ _).1 _ _ (by simp [AMap.get])

/-- C62.  A URI that becomes known by adding a schema at `uri` is one the document at `uri` may define, and what it
stands for is the document or the part of it that has this id. -/
theorem add_only_own (s : Schemas) (uri : Bytes) (v : Val) (u : Bytes) (x : Val) (hn : AMap.get s u = none)
    (h : AMap.get (addSchema s uri v) u = some x) :
    Owns (resolveURI uri []) u ∧
    ((u = resolveURI uri [] ∧ x = norm (resolveURI uri []) v) ∨
      ∃ m, x = .map m ∧ Within (norm (resolveURI uri []) v) (.map m) ∧ StrAt m [105, 100] u) := by
  unfold addSchema at h
  rw [get_insertAll, hn] at h
  dsimp only at h
  by_cases e : u = resolveURI uri []
  · subst e
    rw [get_found] at h
    cases h
    exact ⟨.inl rfl, .inl ⟨rfl, rfl⟩⟩
  · rcases (search_spec _ _ _).2.1 u x h with h | ⟨m, rfl, hw, hs, ht⟩
    · simp [AMap.get, Ne.symm e] at h
    · exact ⟨.inr (trusted_iff.1 ht), .inr ⟨m, rfl, hw, hs⟩⟩

/-- C62.  The document becomes known at its URI, unless that was known before; so do the parts of it with an id
the document may define. -/
theorem add_defines (s : Schemas) (uri : Bytes) (v : Val) :
    (AMap.get s (resolveURI uri []) = none → AMap.get (addSchema s uri v) (resolveURI uri []) = some (norm (resolveURI uri []) v)) ∧
    (∀ m u, Within (norm (resolveURI uri []) v) (.map m) → StrAt m [105, 100] u → Owns (resolveURI uri []) u →
      AMap.get (addSchema s uri v) u ≠ none) := by
  constructor
  · intro h
    unfold addSchema
    rw [get_insertAll, h]
    exact get_found
  · intro m u hw hs ho
    unfold addSchema
    rw [get_insertAll]
    cases AMap.get s u with
    | some x => nofun
    | none =>
      dsimp only
      rcases ho with rfl | ho
      · rw [get_found]; nofun
      · exact (search_spec _ _ _).2.2 u m hw hs (trusted_iff.2 ho)

/-! ## Normalising -/

theorem get_normMap (uri : Bytes) : ∀ (m : List (Bytes × Val)) (k : Bytes),
    AMap.get (normMap uri m) k = (AMap.get m k).map fun x => if k = kEnum then x else norm uri x
  | [], k => rfl
  | (k', v) :: m, k => by
    simp only [normMap, AMap.get]
    by_cases h : k' = k
    · subst h; simp
    · simp [h, get_normMap uri m k]

theorem get_normList (uri : Bytes) : ∀ (xs : List Val) (i : Nat), (normList uri xs)[i]? = (xs[i]?).map (norm uri)
  | [], i => by simp [normList]
  | x :: xs, 0 => by simp [normList]
  | x :: xs, i + 1 => by simp [normList, get_normList uri xs i]

theorem base_iff {uri b : Bytes} {m : List (Bytes × Val)} : Base uri m b ↔ b = baseOf uri m := by
  unfold Base baseOf
  cases h : strAt m kId with
  | none =>
    have := strAt_none.1 h
    constructor
    · rintro (⟨i, hi, _⟩ | ⟨_, rfl⟩)
      · exact absurd hi (this i)
      · rfl
    · rintro rfl; exact .inr ⟨this, rfl⟩
  | some i =>
    have hi := strAt_some.1 h
    constructor
    · rintro (⟨j, hj, rfl⟩ | ⟨hn, _⟩)
      · unfold StrAt at hi hj
        rw [show kId = [105, 100] from rfl, hj] at hi; cases hi; rfl
      · exact absurd hi (hn i)
    · rintro rfl; exact .inl ⟨i, hi, rfl⟩

theorem norm_eq (uri : Bytes) (m : List (Bytes × Val)) : norm uri (.map m) =
    match strAt m kRef with
    | some r => .map (AMap.set (normId uri m) kRef (.str (resolveURI (baseOf uri m) r)))
    | none => .map (match strAt m kId with
      | some i => AMap.set (normMap (resolveURI uri i) m) kId (.str (resolveURI uri i))
      | none => normMap uri m) := by
  rw [norm]
  cases strAt m kRef with
  | some r => rfl
  | none => cases strAt m kId <;> rfl

/-- The entries of a normalised map. -/
theorem norm_map (uri : Bytes) (m : List (Bytes × Val)) : ∃ m', norm uri (.map m) = .map m' ∧
    ∀ k, AMap.get m' k = match AMap.get m k with
      | none => none
      | some x => some (
        if k = kRef ∧ (strAt m kRef).isSome then .str (resolveURI (baseOf uri m) ((strAt m kRef).getD []))
        else if k = kId ∧ (strAt m kId).isSome then .str (resolveURI uri ((strAt m kId).getD []))
        else if (strAt m kRef).isSome ∨ k = kEnum then x else norm (baseOf uri m) x) := by
  rw [norm_eq]
  cases hr : strAt m kRef with
  | some r =>
    have hr' := strAt_some.1 hr
    refine ⟨_, rfl, fun k => ?_⟩
    by_cases h1 : k = kRef
    · subst h1
      rw [AMap.get_set_self, hr']; simp
    · rw [AMap.get_set_other _ _ _ _ h1]
      unfold normId
      cases hi : strAt m kId with
      | none => simp only; cases AMap.get m k <;> simp [h1]
      | some i =>
        have hi' := strAt_some.1 hi
        simp only
        by_cases h2 : k = kId
        · subst h2
          rw [AMap.get_set_self, hi']; simp [h1]
        · rw [AMap.get_set_other _ _ _ _ h2]
          cases AMap.get m k <;> simp [h1, h2]
  | none =>
    refine ⟨_, rfl, fun k => ?_⟩
    cases hi : strAt m kId with
    | none =>
      have : baseOf uri m = uri := by simp [baseOf, hi]
      simp only [get_normMap, this]
      cases AMap.get m k with
      | none => rfl
      | some x => simp
    | some i =>
      have hi' := strAt_some.1 hi
      have : baseOf uri m = resolveURI uri i := by simp [baseOf, hi]
      simp only
      by_cases h2 : k = kId
      · subst h2
        rw [AMap.get_set_self, hi']; simp
      · rw [AMap.get_set_other _ _ _ _ h2, get_normMap, this]
        cases AMap.get m k with
        | none => rfl
        | some x => simp [h2]

theorem norm_str_ref (uri : Bytes) {m m' : List (Bytes × Val)} (h : norm uri (.map m) = .map m') {r : Bytes} (hr : StrAt m kRef r) :
    StrAt m' kRef (resolveURI (baseOf uri m) r) := by
  obtain ⟨m2, h1, h2⟩ := norm_map uri m
  rw [h] at h1; cases h1
  have := h2 kRef
  unfold StrAt
  rw [this, hr, strAt_some.2 hr]; simp

theorem norm_str_id (uri : Bytes) {m m' : List (Bytes × Val)} (h : norm uri (.map m) = .map m') {i : Bytes} (hi : StrAt m kId i) :
    StrAt m' kId (resolveURI uri i) := by
  obtain ⟨m2, h1, h2⟩ := norm_map uri m
  rw [h] at h1; cases h1
  have := h2 kId
  unfold StrAt
  rw [this, hi, strAt_some.2 hi]; simp [show ¬ kId = kRef by decide]

theorem getPath?_key {v : Val} {k : Bytes} {p : VPath} : getPath? v (.key k :: p) = (getKey? v k).bind (getPath? · p) := by
  simp only [getPath?, getElem?]
  cases getKey? v k <;> rfl

theorem place_str {uri s b : Bytes} {w : Val} {p : VPath} (h : Place uri (.str s) p b w) : w = .str s := by
  cases h; rfl

/-- What the place becomes. -/
theorem place_norm {uri : Bytes} {v w : Val} {p : VPath} {b : Bytes} (h : Place uri v p b w) (hw : ∀ s, w ≠ .str s) :
    getPath? (norm uri v) p = some (norm b w) := by
  induction h with
  | here => rfl
  | @key uri b b' m k x w p hr hb hk he hp ih =>
    obtain ⟨m', h1, h2⟩ := norm_map uri m
    rw [h1, getPath?_key]
    have h3 : getKey? (.map m') k = some (norm b x) := by
      show AMap.get m' k = _
      have hr' : strAt m kRef = none := strAt_none.2 hr
      rw [h2, hk]
      dsimp only
      rw [if_neg (by rw [hr']; simp), base_iff.1 hb]
      by_cases hi : k = kId ∧ (strAt m kId).isSome
      · obtain ⟨rfl, hi⟩ := hi
        obtain ⟨i, hi⟩ := Option.isSome_iff_exists.1 hi
        have := strAt_some.1 hi
        unfold StrAt at this
        rw [hk] at this
        cases this
        exact absurd (place_str hp) (hw i)
      · rw [if_neg hi, if_neg (by rw [hr']; simp; exact he)]
    rw [h3]
    exact ih hw
  | @item uri b' xs i x w p hi _ ih =>
    have : norm uri (.list xs) = .list (normList uri xs) := by rw [norm]
    rw [this]
    simp only [getPath?, getElem?, getIndex?]
    rw [get_normList, hi]
    exact ih hw

theorem getPath?_append (v : Val) (p q : VPath) : getPath? v (p ++ q) = (getPath? v p).bind (getPath? · q) := by
  induction p generalizing v with
  | nil => rfl
  | cons e p ih =>
    simp only [List.cons_append, getPath?]
    cases getElem? v e with
    | none => rfl
    | some c => exact ih c

/-- C63.  Every "$ref" text at a place where schemas can be becomes an absolute reference: it is resolved against
the base URI inside its map. -/
theorem refs_resolved {uri : Bytes} {v : Val} {p : VPath} {b b' r : Bytes} {m : List (Bytes × Val)} (h : Place uri v p b (.map m))
    (hb : Base b m b') (hr : StrAt m [36, 114, 101, 102] r) :
    getPath? (norm uri v) (p ++ [.key [36, 114, 101, 102]]) = some (.str (resolveURI b' r)) := by
  rw [getPath?_append, place_norm h nofun]
  obtain ⟨m', h1, -⟩ := norm_map b m
  have := norm_str_ref b h1 hr
  rw [h1, base_iff.1 hb]
  show getPath? (.map m') [.key kRef] = _
  rw [getPath?_key]
  show (AMap.get m' kRef).bind _ = _
  rw [this]; rfl

/-- C63.  Every "id" text at a place where schemas can be is resolved against the base URI around its map. -/
theorem ids_resolved {uri : Bytes} {v : Val} {p : VPath} {b i : Bytes} {m : List (Bytes × Val)} (h : Place uri v p b (.map m))
    (hi : StrAt m [105, 100] i) : getPath? (norm uri v) (p ++ [.key [105, 100]]) = some (.str (resolveURI b i)) := by
  rw [getPath?_append, place_norm h nofun]
  obtain ⟨m', h1, -⟩ := norm_map b m
  have := norm_str_id b h1 hi
  rw [h1]
  show getPath? (.map m') [.key kId] = _
  rw [getPath?_key]
  show (AMap.get m' kId).bind _ = _
  rw [this]; rfl

/-- C63.  What is listed in an "enum" is not changed. -/
theorem enum_kept {uri : Bytes} {v x : Val} {p : VPath} {b : Bytes} {m : List (Bytes × Val)} (h : Place uri v p b (.map m))
    (hx : AMap.get m [101, 110, 117, 109] = some x) : getPath? (norm uri v) (p ++ [.key [101, 110, 117, 109]]) = some x := by
  rw [getPath?_append, place_norm h nofun]
  obtain ⟨m', h1, h2⟩ := norm_map b m
  rw [h1]
  show getPath? (.map m') [.key kEnum] = _
  rw [getPath?_key]
  show (AMap.get m' kEnum).bind _ = _
  rw [h2, show kEnum = [101, 110, 117, 109] from rfl, hx]
  simp [show ¬ ([101, 110, 117, 109] : Bytes) = kRef by decide, show ¬ ([101, 110, 117, 109] : Bytes) = kId by decide, kEnum, getPath?]

/-- The two values are the same but for the texts of "id" and "$ref". -/
def SameBut (q : VPath) (x y : Val) : Prop :=
  match x with
  | .list xs => ∃ ys, y = .list ys ∧ ys.length = xs.length
  | .map m => ∃ m', y = .map m' ∧ ∀ k, (AMap.get m' k).isSome = (AMap.get m k).isSome
  | .str _ => y = x ∨ ((q.getLast? = some (.key [105, 100]) ∨ q.getLast? = some (.key [36, 114, 101, 102])) ∧ ∃ s, y = .str s)
  | x => y = x

theorem normList_length (uri : Bytes) (xs : List Val) : (normList uri xs).length = xs.length := by
  induction xs with
  | nil => rfl
  | cons x xs ih => simp [normList, ih]

theorem sameBut_refl (q : VPath) (x : Val) : SameBut q x x := by
  cases x <;> simp [SameBut]

theorem sameBut_norm (q : VPath) (uri : Bytes) (x : Val) : SameBut q x (norm uri x) := by
  cases x with
  | list xs => exact ⟨normList uri xs, by rw [norm], normList_length _ _⟩
  | map m =>
    obtain ⟨m', h1, h2⟩ := norm_map uri m
    refine ⟨m', h1, fun k => ?_⟩
    rw [h2]; cases AMap.get m k <;> rfl
  | _ => simp [SameBut, norm]

/-- C63.  Nothing else changes: every place in the document is there afterwards and no other, and has the same
value but for texts under "id" and "$ref" and what lies inside. -/
theorem norm_only_refs (q : VPath) : ∀ (uri : Bytes) (v : Val),
    (∀ x, getPath? v q = some x → ∃ y, getPath? (norm uri v) q = some y ∧ SameBut q x y) ∧
    (getPath? v q = none → getPath? (norm uri v) q = none) := by
  induction q with
  | nil =>
    intro uri v
    refine ⟨fun x h => ?_, fun h => by cases h⟩
    cases h
    exact ⟨_, rfl, sameBut_norm _ _ _⟩
  | cons e q ih =>
    intro uri v
    -- one step into the value
    have key : (getElem? v e = none ∧ getElem? (norm uri v) e = none) ∨
        ∃ c c', getElem? v e = some c ∧ getElem? (norm uri v) e = some c' ∧
          (c' = c ∨ (∃ u, c' = norm u c) ∨ ((e = .key kId ∨ e = .key kRef) ∧ ∃ s s', c = .str s ∧ c' = .str s')) := by
      cases v with
      | map m =>
        obtain ⟨m', h1, h2⟩ := norm_map uri m
        rw [h1]
        cases e with
        | index i => exact .inl ⟨rfl, rfl⟩
        | key k =>
          show (AMap.get m k = none ∧ AMap.get m' k = none) ∨ ∃ c c', AMap.get m k = some c ∧ AMap.get m' k = some c' ∧ _
          rw [h2]
          cases hk : AMap.get m k with
          | none => exact .inl ⟨rfl, rfl⟩
          | some c =>
            refine .inr ⟨c, _, rfl, rfl, ?_⟩
            by_cases g1 : k = kRef ∧ (strAt m kRef).isSome
            · rw [if_pos g1]
              obtain ⟨rfl, g⟩ := g1
              obtain ⟨i, hi⟩ := Option.isSome_iff_exists.1 g
              have := strAt_some.1 hi
              unfold StrAt at this
              rw [hk] at this; cases this
              exact .inr (.inr ⟨.inr rfl, _, _, rfl, rfl⟩)
            · rw [if_neg g1]
              by_cases g2 : k = kId ∧ (strAt m kId).isSome
              · rw [if_pos g2]
                obtain ⟨rfl, g⟩ := g2
                obtain ⟨i, hi⟩ := Option.isSome_iff_exists.1 g
                have := strAt_some.1 hi
                unfold StrAt at this
                rw [hk] at this; cases this
                exact .inr (.inr ⟨.inl rfl, _, _, rfl, rfl⟩)
              · rw [if_neg g2]
                by_cases g3 : (strAt m kRef).isSome ∨ k = kEnum
                · rw [if_pos g3]; exact .inl rfl
                · rw [if_neg g3]; exact .inr (.inl ⟨_, rfl⟩)
      | list xs =>
        rw [show norm uri (.list xs) = .list (normList uri xs) by rw [norm]]
        cases e with
        | key k => exact .inl ⟨rfl, rfl⟩
        | index i =>
          simp only [getElem?, getIndex?, get_normList]
          cases hx : xs[i.toNat]? with
          | none => exact .inl ⟨rfl, rfl⟩
          | some c => exact .inr ⟨c, _, rfl, rfl, .inr (.inl ⟨_, rfl⟩)⟩
      | _ => cases e <;> exact .inl ⟨rfl, by simp [norm, getElem?, getKey?, getIndex?]⟩
    simp only [getPath?]
    rcases key with ⟨h1, h2⟩ | ⟨c, c', h1, h2, h3⟩
    · rw [h1, h2]; exact ⟨nofun, fun _ => rfl⟩
    · rw [h1, h2]
      have sb : ∀ x y, q ≠ [] → SameBut q x y → SameBut (e :: q) x y := by
        intro x y hq h
        have : (e :: q).getLast? = q.getLast? := by
          cases q with
          | nil => exact absurd rfl hq
          | cons a b => simp [List.getLast?_cons_cons]
        cases x <;> simp only [SameBut, this] at h ⊢ <;> exact h
      have sb' : ∀ u x y, getPath? c q = some x → getPath? (norm u c) q = some y → SameBut q x y → SameBut (e :: q) x y := by
        intro u x y hx hy h
        cases q with
        | nil => cases hx; cases hy; exact sameBut_norm _ _ _
        | cons a b => exact sb x y nofun h
      rcases h3 with rfl | ⟨u, rfl⟩ | ⟨he, s, s', rfl, rfl⟩
      · exact ⟨fun x h => ⟨x, h, sameBut_refl _ _⟩, fun h => h⟩
      · refine ⟨fun x h => ?_, (ih u c).2⟩
        obtain ⟨y, hy, hs⟩ := (ih u c).1 x h
        exact ⟨y, hy, sb' u x y h hy hs⟩
      · cases q with
        | nil =>
          refine ⟨fun x h => ?_, fun h => by cases h⟩
          cases h
          refine ⟨_, rfl, .inr ⟨?_, s', rfl⟩⟩
          rcases he with rfl | rfl
          · exact .inl rfl
          · exact .inr rfl
        | cons a b => cases a <;> exact ⟨nofun, fun _ => rfl⟩

end Verif.Loader
