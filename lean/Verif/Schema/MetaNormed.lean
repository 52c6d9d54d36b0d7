import Verif.Schema.MetaLoad
/-!
# Schemas of good form, as the loader normalises them
-/

namespace Verif.Schema
open Verif Loader

/-! ## Schemas after normalising -/

/-- As it was, or normalised. -/
def Normed (v v' : Val) : Prop := v' = v ∨ ∃ u, v' = norm u v

theorem normed_scalar {v v' : Val} (h : Normed v v') (hm : v.ty ≠ .map) (hl : v.ty ≠ .list) : v' = v := by
  rcases h with h | ⟨u, h⟩
  · exact h
  · cases v <;> simp [Val.ty] at hm hl <;> simpa [norm] using h

theorem mem_normList {u : Bytes} : ∀ {xs : List Val} {y : Val}, y ∈ normList u xs → ∃ x ∈ xs, Normed x y
  | x :: xs, y, h => by
    simp only [normList, List.mem_cons] at h
    rcases h with h | h
    · exact ⟨x, .head _, .inr ⟨u, h⟩⟩
    · obtain ⟨x, hx, hn⟩ := mem_normList h
      exact ⟨x, .tail _ hx, hn⟩

theorem normed_list {xs : List Val} {v' : Val} (h : Normed (.list xs) v') : ∃ ys, v' = .list ys ∧ ∀ y ∈ ys, ∃ x ∈ xs, Normed x y := by
  rcases h with h | ⟨u, h⟩
  · exact ⟨xs, h, fun y hy => ⟨y, hy, .inl rfl⟩⟩
  · exact ⟨normList u xs, by simpa [norm] using h, fun y hy => mem_normList hy⟩

theorem mem_normMap {u : Bytes} : ∀ {m : List (Bytes × Val)} {k : Bytes} {y : Val}, (k, y) ∈ normMap u m → ∃ x, (k, x) ∈ m ∧ Normed x y
  | (l, x) :: m, k, y, h => by
    simp only [normMap, List.mem_cons, Prod.mk.injEq] at h
    rcases h with ⟨rfl, h⟩ | h
    · refine ⟨x, .head _, ?_⟩
      by_cases hk : k = Loader.kEnum
      · rw [if_pos hk] at h; exact .inl h
      · rw [if_neg hk] at h; exact .inr ⟨u, h⟩
    · obtain ⟨x, hx, hn⟩ := mem_normMap h
      exact ⟨x, .tail _ hx, hn⟩

/-- Maps without texts in them. -/
theorem normed_map {m : List (Bytes × Val)} {v' : Val} (hs : ∀ k x, (k, x) ∈ m → x.ty ≠ .str) (h : Normed (.map m) v') :
    ∃ m', v' = .map m' ∧ ∀ k y, (k, y) ∈ m' → ∃ x, (k, x) ∈ m ∧ Normed x y := by
  rcases h with h | ⟨u, h⟩
  · exact ⟨m, h, fun k y hy => ⟨y, hy, .inl rfl⟩⟩
  · have no : ∀ k, strAt m k = none := by
      intro k
      unfold strAt
      cases hg : AMap.get m k with
      | none => rfl
      | some v =>
        have := hs k v (get_mem hg)
        cases v <;> simp [Val.ty] at this <;> rfl
    rw [norm, no, no] at h
    exact ⟨_, h, fun k y hy => mem_normMap hy⟩

/-- A schema without reference. -/
theorem normed_schema {m : List (Bytes × Val)} {v' : Val} (hr : ∀ r, ¬ has m kRef (.str r)) (h : Normed (.map m) v') :
    ∃ m', v' = .map m' ∧ ∀ k y, has m' k y → k ≠ kId → ∃ x, has m k x ∧ Normed x y := by
  rcases h with h | ⟨u, h⟩
  · exact ⟨m, h, fun k y hy _ => ⟨y, hy, .inl rfl⟩⟩
  · have no : strAt m Loader.kRef = none := by
      unfold strAt
      cases hg : AMap.get m Loader.kRef with
      | none => rfl
      | some v =>
        cases v with
        | str r => exact absurd hg (hr r)
        | _ => rfl
    have key : ∀ (u : Bytes) k y, AMap.get (normMap u m) k = some y → ∃ x, has m k x ∧ Normed x y := by
      intro u k y hy
      rw [get_normMap] at hy
      cases hg : AMap.get m k with
      | none => rw [hg] at hy; cases hy
      | some x =>
        rw [hg] at hy
        simp only [Option.map_some, Option.some.injEq] at hy
        refine ⟨x, hg, ?_⟩
        by_cases hk : k = Loader.kEnum
        · rw [if_pos hk] at hy; exact .inl hy.symm
        · rw [if_neg hk] at hy; exact .inr ⟨u, hy.symm⟩
    rw [norm, no] at h
    cases hi : strAt m Loader.kId with
    | none =>
      rw [hi] at h
      exact ⟨_, h, fun k y hy _ => key u k y hy⟩
    | some i =>
      rw [hi] at h
      simp only [] at h
      refine ⟨_, h, fun k y hy hk => key (Uri.resolveURI u i) k y ?_⟩
      unfold has at hy
      rwa [AMap.get_set_other _ Loader.kId _ _ hk] at hy

/-! ## What the validator understands -/

/-- A schema of good form, in all its parts with nothing that the schema of schemas overlooks. -/
def Sound (E : Env) (n : Nat) (t : Val) : Prop := Proper E n t ∧ ∀ m, Part t (.map m) → Checked E m

/-- As normalised. -/
def SoundN (E : Env) (n : Nat) (t' : Val) : Prop := ∃ t, Normed t t' ∧ Sound E n t

variable {E : Env}

theorem typeName_scalar {v v' : Val} (h : IsTypeName v) (hn : Normed v v') : v' = v := by
  obtain ⟨w, rfl, _⟩ := h
  exact normed_scalar hn nofun nofun

theorem text_scalar {v v' : Val} (h : IsText v) (hn : Normed v v') : v' = v := by
  obtain ⟨w, rfl⟩ := h
  exact normed_scalar hn nofun nofun

theorem number_scalar {v v' : Val} (h : isNumber v = true) (hn : Normed v v') : v' = v := by
  refine normed_scalar hn ?_ ?_ <;> (cases v <;> first | (cases h; done) | nofun)

theorem size_known {v : Val} (h : IsSize v) (hb : ∃ n, value v = some n ∧ n < 2 ^ 64 * 2 ^ 1074) :
    isNumber v = true ∧ ∃ u, asUnsignedNum v = .ok u := by
  obtain ⟨n, hv, hn⟩ := hb
  cases v with
  | int i => exact ⟨rfl, _, rfl⟩
  | uint i => exact ⟨rfl, _, rfl⟩
  | flt b =>
    refine ⟨rfl, ?_⟩
    cases hl : LD.ofDouble b with
    | fin k =>
      simp only [value, hl, Option.some.injEq] at hv
      subst hv
      rcases h with ⟨n', hv', h0, hd⟩ | ⟨b', e, h⟩
      · simp only [value, hl, Option.some.injEq] at hv'
        subst hv'
        refine ⟨UInt64.ofNat (Int.tdiv k (2 ^ 1074)).toNat, ?_⟩
        · simp only [asUnsignedNum, hl]
          obtain ⟨q, rfl⟩ := hd
          have hz : (0 : Int) < 2 ^ 1074 := Int.pow_pos (by decide)
          rw [Int.mul_tdiv_cancel_left _ (Int.ne_of_gt hz)]
          rw [if_pos]
          refine ⟨?_, ?_⟩
          · exact Int.le_of_mul_le_mul_left (by rw [Int.mul_zero]; exact h0) hz
          · rw [Int.mul_comm] at hn
            exact Int.lt_of_mul_lt_mul_right hn (Int.le_of_lt hz)
      · cases e; rcases h with h | h <;> rw [hl] at h <;> cases h
    | nan => simp [value, hl] at hv
    | inf s => simp [value, hl] at hv
  | _ => simp [value] at hv

theorem sound_understood {n : Nat} {t' : Val} (h : SoundN E (n + 1) t') : ∃ m', t' = .map m' ∧ Understood E (SoundN E n) m' := by
  obtain ⟨t, hn, ⟨m, rfl, F⟩, hp⟩ := h
  have C : Checked E m := hp m .self
  obtain ⟨m', rfl, hm'⟩ := normed_schema C.ref hn
  refine ⟨m', rfl, ?_⟩
  have mem : ∀ {k : Bytes} {P : Val → Prop} {f : List (Bytes × (Val → Prop))} (i : Nat), f[i]? = some (k, P) → (k, P) ∈ f := fun i h => List.mem_of_getElem? h
  have key : ∀ {k : Bytes} {P : Val → Prop} {v' : Val} (i : Nat), (forms E (Proper E n))[i]? = some (k, P) → has m' k v' → k ≠ kId →
      ∃ v, has m k v ∧ P v ∧ Normed v v' := by
    intro k P v' i hi h hk
    obtain ⟨v, hv, hn⟩ := hm' k v' h hk
    exact ⟨v, hv, F.keys k P (mem i hi) v (get_mem hv), hn⟩
  have one : ∀ {k : Bytes} {v v' : Val}, k ∈ [kNot, kItems, kAdditionalItems, kAdditionalProperties] → has m k v → Proper E n v → Normed v v' → SoundN E n v' :=
    fun hk hv h hn => ⟨_, hn, h, fun m hm => hp m (.one hk hv hm)⟩
  have list : ∀ {k : Bytes} {ss : List Val} {v' : Val}, k ∈ [kAllOf, kAnyOf, kOneOf, kItems] → has m k (.list ss) → (∀ s ∈ ss, Proper E n s) →
      Normed (.list ss) v' → ∃ ss', v' = .list ss' ∧ ∀ s ∈ ss', SoundN E n s := by
    intro k ss v' hk hv h hn
    obtain ⟨ys, rfl, hy⟩ := normed_list hn
    refine ⟨ys, rfl, fun y hy' => ?_⟩
    obtain ⟨x, hx, hn⟩ := hy y hy'
    exact ⟨x, hn, h x hx, fun m hm => hp m (.list hk hv hx hm)⟩
  have map : ∀ {k : Bytes} {v v' : Val}, k ∈ [kProperties, kPatternProperties, kDependencies] → has m k v → MapOf (Proper E n) v → Normed v v' →
      ∃ ps ps', v = .map ps ∧ v' = .map ps' ∧ ∀ q y, (q, y) ∈ ps' → SoundN E n y ∧ ∃ x, (q, x) ∈ ps := by
    intro k v v' hk hv h hn
    obtain ⟨ps, rfl, h⟩ := h
    obtain ⟨ps', rfl, hy⟩ := normed_map (fun k x hx => by obtain ⟨_, e⟩ := proper_map (h k x hx); rw [e]; nofun) hn
    refine ⟨ps, ps', rfl, rfl, fun q y hqy => ?_⟩
    obtain ⟨x, hx, hn⟩ := hy q y hqy
    exact ⟨⟨x, hn, h q x hx, fun m hm => hp m (.map hk hv hx hm)⟩, x, hx⟩
  constructor
  case ref =>
    intro r hr
    obtain ⟨v, hv, hn⟩ := hm' _ _ hr (by decide)
    exfalso
    cases v with
    | map vm =>
      rcases hn with hn | ⟨u, hn⟩
      · cases hn
      · rw [norm] at hn; split at hn <;> cases hn
    | list vs =>
      obtain ⟨_, e, _⟩ := normed_list hn
      cases e
    | _ =>
      have e := normed_scalar hn nofun nofun
      first | (cases e; done) | (cases e; exact C.ref _ hv)
  case type =>
    intro t ht
    obtain ⟨v, hv, hP, hn⟩ := key 30 rfl ht (by decide)
    rcases hP with hP | ⟨ws, rfl, _, hw, _⟩
    · rw [typeName_scalar hP hn]; exact .inl hP
    · obtain ⟨ys, rfl, hy⟩ := normed_list hn
      refine .inr ⟨ys, rfl, fun y hy' => ?_⟩
      obtain ⟨x, hx, hn⟩ := hy y hy'
      rw [typeName_scalar (hw x hx) hn]; exact hw x hx
  case enum =>
    intro v h
    obtain ⟨v, hv, ⟨xs, rfl, _⟩, hn⟩ := key 9 rfl h (by decide)
    obtain ⟨ys, rfl, _⟩ := normed_list hn
    exact ⟨ys, rfl⟩
  case limits =>
    intro k l hk hl
    simp only [List.mem_cons, List.not_mem_nil, or_false] at hk
    rcases hk with rfl | rfl
    · obtain ⟨v, hv, hP, hn⟩ := key 21 rfl hl (by decide)
      rw [number_scalar hP hn]; exact hP
    · obtain ⟨v, hv, hP, hn⟩ := key 17 rfl hl (by decide)
      rw [number_scalar hP hn]; exact hP
  case exclusive =>
    intro k l hk hl
    simp only [List.mem_cons, List.not_mem_nil, or_false] at hk
    rcases hk with rfl | rfl
    · obtain ⟨v, hv, ⟨b, rfl⟩, hn⟩ := key 11 rfl hl (by decide)
      rw [normed_scalar hn nofun nofun]; exact ⟨b, rfl⟩
    · obtain ⟨v, hv, ⟨b, rfl⟩, hn⟩ := key 10 rfl hl (by decide)
      rw [normed_scalar hn nofun nofun]; exact ⟨b, rfl⟩
  case multipleOf =>
    intro q hq
    have pos : ∀ {v v' : Val}, IsPositive v → Normed v v' → IsPositive v' := by
      intro v v' h hn
      have : v' = v := by
        refine normed_scalar hn ?_ ?_
        all_goals
          rcases h with ⟨k, h, _⟩ | ⟨b, rfl, _⟩
          · cases v <;> first | (simp [value] at h; done) | nofun
          · nofun
      rw [this]; exact h
    rcases hq with hq | ⟨_, hq⟩
    · obtain ⟨v, hv, hP, hn⟩ := key 22 rfl hq (by decide)
      exact pos hP hn
    · obtain ⟨v, hv, hn⟩ := hm' _ _ hq (by decide)
      exact pos (C.divisibleBy v hv) hn
  case sizes =>
    intro k l hk hl
    have fin : ∀ {i : Nat}, (forms E (Proper E n))[i]? = some (k, IsSize) → k ≠ kId → isNumber l = true ∧ ∃ u, asUnsignedNum l = .ok u := by
      intro i hi hne
      obtain ⟨v, hv, hP, hn⟩ := key i hi hl hne
      have h := size_known hP (C.sizes k v hk hv)
      rw [number_scalar h.1 hn]; exact h
    simp only [List.mem_cons, List.not_mem_nil, or_false] at hk
    rcases hk with rfl | rfl | rfl | rfl | rfl | rfl
    · exact fin (i := 18) rfl (by decide)
    · exact fin (i := 14) rfl (by decide)
    · exact fin (i := 19) rfl (by decide)
    · exact fin (i := 15) rfl (by decide)
    · exact fin (i := 20) rfl (by decide)
    · exact fin (i := 16) rfl (by decide)
  case pattern =>
    intro p h
    obtain ⟨v, hv, ⟨t, g, rfl, hg⟩, hn⟩ := key 25 rfl h (by decide)
    rw [normed_scalar hn nofun nofun]; exact ⟨t, g, rfl, hg⟩
  case formats =>
    intro w re hw h
    obtain ⟨v, hv, hn⟩ := hm' _ _ h (by decide)
    have : has m kFormat (.str w) := by
      cases v with
      | map vm =>
        rcases hn with hn | ⟨u, hn⟩
        · cases hn
        · rw [norm] at hn; split at hn <;> cases hn
      | list vs =>
        obtain ⟨_, e, _⟩ := normed_list hn
        cases e
      | _ => rw [normed_scalar hn nofun nofun]; exact hv
    exact C.formats w re hw this
  case unique =>
    intro u h
    obtain ⟨v, hv, ⟨b, rfl⟩, hn⟩ := key 31 rfl h (by decide)
    rw [normed_scalar hn nofun nofun]; exact ⟨b, rfl⟩
  case items =>
    intro s h
    obtain ⟨v, hv, hP, hn⟩ := key 13 rfl h (by decide)
    rcases hP with hP | ⟨ss, rfl, _, hs⟩
    · have hs := one (by simp) hv hP hn
      refine .inl ⟨hs, ?_⟩
      obtain ⟨vm, rfl⟩ := proper_map hP
      rcases hn with rfl | ⟨u, rfl⟩
      · nofun
      · rw [norm]; split <;> nofun
    · exact .inr (list (by simp) hv hs hn)
  case additional =>
    intro k a hk h
    have fin : ∀ {i : Nat}, (forms E (Proper E n))[i]? = some (k, fun v => IsFlag v ∨ Proper E n v) → k ≠ kId →
        k ∈ [kNot, kItems, kAdditionalItems, kAdditionalProperties] → IsFlag a ∨ SoundN E n a := by
      intro i hi hne hk
      obtain ⟨v, hv, hP, hn⟩ := key i hi h hne
      rcases hP with ⟨b, rfl⟩ | hP
      · rw [normed_scalar hn nofun nofun]; exact .inl ⟨b, rfl⟩
      · exact .inr (one hk hv hP hn)
    simp only [List.mem_cons, List.not_mem_nil, or_false] at hk
    rcases hk with rfl | rfl
    · exact fin (i := 1) rfl (by decide) (by simp)
    · exact fin (i := 2) rfl (by decide) (by simp)
  case required =>
    intro r h
    obtain ⟨v, hv, ⟨xs, rfl, _, hx, _⟩, hn⟩ := key 28 rfl h (by decide)
    obtain ⟨ys, rfl, hy⟩ := normed_list hn
    refine ⟨ys, rfl, fun y hy' => ?_⟩
    obtain ⟨x, hx', hn⟩ := hy y hy'
    rw [text_scalar (hx x hx') hn]; exact hx x hx'
  case properties =>
    intro v' h
    obtain ⟨v, hv, hP, hn⟩ := key 27 rfl h (by decide)
    obtain ⟨ps, ps', _, rfl, h'⟩ := map (by simp) hv hP hn
    exact ⟨ps', rfl, fun k x hx => (h' k x hx).1⟩
  case patterns =>
    intro v' h
    obtain ⟨v, hv, hP, hn⟩ := key 26 rfl h (by decide)
    obtain ⟨ps, ps', rfl, rfl, h'⟩ := map (by simp) hv hP hn
    refine ⟨ps', rfl, fun k x hx => ⟨(h' k x hx).1, ?_⟩⟩
    obtain ⟨y, hy⟩ := (h' k x hx).2
    exact C.patterns ps k y hv hy
  case dependencies =>
    intro v' h
    obtain ⟨v, hv, ⟨ds, rfl, hd⟩, hn⟩ := key 7 rfl h (by decide)
    obtain ⟨ds', rfl, hy⟩ := normed_map (fun k x hx => by
      rcases hd k x hx with h | ⟨_, rfl, _⟩
      · obtain ⟨_, e⟩ := proper_map h; rw [e]; nofun
      · nofun) hn
    refine ⟨ds', rfl, fun q y hqy => ?_⟩
    obtain ⟨x, hx, hn⟩ := hy q y hqy
    rcases hd q x hx with h | ⟨ks, rfl, _, hk, _⟩
    · refine .inl ⟨⟨x, hn, h, fun m hm => hp m (.map (by simp) hv hx hm)⟩, ?_⟩
      obtain ⟨vm, rfl⟩ := proper_map h
      rcases hn with rfl | ⟨u, rfl⟩
      · rfl
      · rw [norm]; split <;> rfl
    · obtain ⟨ys, rfl, hy⟩ := normed_list hn
      refine .inr ⟨ys, rfl, fun y hy' => ?_⟩
      obtain ⟨x, hx', hn⟩ := hy y hy'
      rw [text_scalar (hk x hx') hn]; exact hk x hx'
  case combinations =>
    intro k v' hk h
    have fin : ∀ {i : Nat}, (forms E (Proper E n))[i]? = some (k, ListOf (Proper E n)) → k ≠ kId →
        k ∈ [kAllOf, kAnyOf, kOneOf, kItems] → ∃ ss, v' = .list ss ∧ ∀ s ∈ ss, SoundN E n s := by
      intro i hi hne hk
      obtain ⟨v, hv, ⟨ss, rfl, _, hs⟩, hn⟩ := key i hi h hne
      exact list hk hv hs hn
    simp only [List.mem_cons, List.not_mem_nil, or_false] at hk
    rcases hk with rfl | rfl | rfl
    · exact fin (i := 3) rfl (by decide) (by simp)
    · exact fin (i := 4) rfl (by decide) (by simp)
    · exact fin (i := 24) rfl (by decide) (by simp)
  case not =>
    intro s h
    obtain ⟨v, hv, hP, hn⟩ := key 23 rfl h (by decide)
    exact one (by simp) hv hP hn

end Verif.Schema
