import Verif.Args.GenLeaf
/-!
# How the schema of the result is put together from the schemas of the entries
-/

namespace Verif.Args
open Verif JsonDrv Schema

/-- The path made of these keys. -/
def kp (ks : List Bytes) : VPath := ks.map .key

/-- The schema at these properties. -/
def node (S : Val) : List Bytes → Option Val
  | [] => some S
  | k :: ks => match getKey? S kProperties with
    | some (.map P) => match AMap.get P k with
      | some c => node c ks
      | none => none
    | _ => none

/-- The keywords of an inner schema. -/
def innerKeys : List Bytes := [kType, kProperties, kRequired]

/-- An inner schema. -/
structure Inner (m : List (Bytes × Val)) : Prop where
  type : AMap.get m kType = some (.str wObject)
  properties : ∃ P, AMap.get m kProperties = some (.map P)
  required : ∀ r, AMap.get m kRequired = some r → ∃ ks : List Bytes, r = .list (ks.map .str)
  keys : KeysIn m innerKeys

/-- The property is listed as required. -/
def Req (S : Val) (q : List Bytes) (k : Bytes) : Prop :=
  ∃ m r, node S q = some (.map m) ∧ AMap.get m kRequired = some (.list r) ∧ Val.str k ∈ r

/-- A schema that can be extended. -/
def Open (X : Val) : Prop := X = .map [] ∨ ∃ m, X = .map m ∧ Inner m

theorem node_empty (q : List Bytes) : node (.map []) q = if q = [] then some (.map []) else none := by
  cases q with
  | nil => rfl
  | cons k q => rfl

theorem node_cons_map {m P : List (Bytes × Val)} (h : AMap.get m kProperties = some (.map P)) (k : Bytes) (q : List Bytes) :
    node (.map m) (k :: q) = (AMap.get P k).bind (fun c => node c q) := by
  rw [node]
  have : getKey? (.map m) kProperties = some (.map P) := h
  rw [this]
  dsimp only
  cases AMap.get P k <;> rfl

theorem node_append (S : Val) (p q : List Bytes) : node S (p ++ q) = (node S p).bind (fun X => node X q) := by
  induction p generalizing S with
  | nil => rfl
  | cons k p ih =>
    rw [List.cons_append, node, node]
    cases getKey? S kProperties with
    | none => rfl
    | some v =>
      cases v with
      | map P => 
        dsimp only
        cases AMap.get P k with
        | none => rfl
        | some c => exact ih c
      | _ => rfl

theorem ensure_get (m : List (Bytes × Val)) (k : Bytes) (v : Val) (k' : Bytes) :
    AMap.get (ensure m k v) k' = if k' = k then some ((AMap.get m k).getD v) else AMap.get m k' := by
  unfold ensure
  cases h : AMap.get m k with
  | none => simp [get_set]
  | some x =>
    dsimp only
    split
    · next e => rw [e, h]; rfl
    · rfl

theorem typeIs_inner {m : List (Bytes × Val)} (h : Inner m) : typeIs (.map m) wObject = true := by
  have e : getKey? (.map m) kType = some (.str wObject) := h.type
  unfold typeIs
  rw [e]
  simp

/-- One step down a path of keys, whatever the schema is so far. -/
theorem place_key {w : World} {req : Bool} {leaf : Out Val} {k : Bytes} {p : VPath} {S : Val} (h : Open S) :
    place w req leaf (.key k :: p) S = inObject w req (.key k) (place w req leaf p) S := by
  rcases h with rfl | ⟨m, rfl, hm⟩
  · rw [place]
    have h1 : typeIs (.map []) wObject = false := rfl
    have h2 : typeIs (.map []) wArray = false := rfl
    rw [h1, h2]
    rfl
  · rw [place, if_pos (typeIs_inner hm)]

/-- Naming a property as required. -/
theorem addRequired_ok {w : World} {k : Bytes} {m : List (Bytes × Val)}
    (hr : ∀ r, AMap.get m kRequired = some r → ∃ ks : List Bytes, r = .list (ks.map .str)) :
    ∃ m', addRequired w k m = .ok m' ∧ (∀ k', k' ≠ kRequired → AMap.get m' k' = AMap.get m k') ∧
      ∃ ks : List Bytes, AMap.get m' kRequired = some (.list (ks.map .str)) ∧
        ∀ k', k' ∈ ks ↔ k' = k ∨ ∃ r, AMap.get m kRequired = some (.list r) ∧ Val.str k' ∈ r := by
  unfold addRequired
  cases h : AMap.get m kRequired with
  | none => exact ⟨_, rfl, fun k' hk => AMap.get_set_other _ _ _ _ hk, [k], AMap.get_set_self .., by simp⟩
  | some r =>
    obtain ⟨ks, rfl⟩ := hr r h
    have hmem : ∀ k', Val.str k' ∈ ks.map Val.str ↔ k' ∈ ks := by
      intro k'; simp
    have hany : (ks.map Val.str).any (fun x => veq w.p x (.str k)) = true ↔ k ∈ ks := by
      simp only [List.any_map, List.any_eq_true, Function.comp_apply]
      constructor
      · rintro ⟨x, hx, he⟩
        have : x = k := by
          simpa [veq, cmp, strCompare_eq_zero] using he
        exact this ▸ hx
      · intro hk; exact ⟨k, hk, veq_refl _ _⟩
    dsimp only
    by_cases hk : k ∈ ks
    · rw [if_pos (hany.2 hk)]
      refine ⟨m, rfl, fun _ _ => rfl, ks, h, fun k' => ⟨fun h' => .inr ⟨_, rfl, (hmem k').2 h'⟩, ?_⟩⟩
      rintro (rfl | ⟨r, e, hr'⟩)
      · exact hk
      · cases e; exact (hmem k').1 hr'
    · rw [if_neg (fun e => hk (hany.1 e))]
      refine ⟨_, rfl, fun k' hk => AMap.get_set_other _ _ _ _ hk, ks ++ [k], by rw [AMap.get_set_self]; simp, fun k' => ?_⟩
      simp only [List.mem_append, List.mem_singleton]
      constructor
      · rintro (h' | h')
        · exact .inr ⟨_, rfl, (hmem k').2 h'⟩
        · exact .inl h'
      · rintro (h' | ⟨r, e, hr'⟩)
        · exact .inr h'
        · cases e; exact .inl ((hmem k').1 hr')

/-- `GenerateObjectSchema` on a schema that can be extended. -/
theorem inObject_ok {w : World} {req : Bool} {k : Bytes} {f : Val → Out Val} {S : Val} (h : Open S) {c' : Val}
    (hf : ∀ c, c = (node S [k]).getD (.map []) → f c = .ok c') :
    ∃ m P', inObject w req (.key k) f S = .ok (.map m) ∧ Inner m ∧ AMap.get m kProperties = some (.map P') ∧
      (∀ k', node (.map m) [k'] = if k' = k then some c' else node S [k']) ∧
      ∀ k', Req (.map m) [] k' ↔ Req S [] k' ∨ (req = true ∧ k' = k) := by
  -- the keywords so far
  obtain ⟨m0, hm0, hS, ht0, hp0, hr0, hk0⟩ : ∃ m0, keywords S = .ok m0 ∧ S = .map m0 ∧
      (∀ t, AMap.get m0 kType = some t → t = .str wObject) ∧ (∀ v, AMap.get m0 kProperties = some v → ∃ P, v = .map P) ∧
      (∀ r, AMap.get m0 kRequired = some r → ∃ ks : List Bytes, r = .list (ks.map .str)) ∧ KeysIn m0 innerKeys := by
    rcases h with rfl | ⟨m, rfl, hm⟩
    · exact ⟨[], rfl, rfl, nofun, nofun, nofun, KeysIn.nil _⟩
    · refine ⟨m, rfl, rfl, ?_, ?_, hm.required, hm.keys⟩
      · intro t h; rw [hm.type] at h; cases h; rfl
      · intro v h; obtain ⟨P, hP⟩ := hm.properties; rw [hP] at h; cases h; exact ⟨P, rfl⟩
  subst hS
  have e1 : kProperties ≠ kType := by decide
  have e2 : kRequired ≠ kType := by decide
  have e3 : kRequired ≠ kProperties := by decide
  have e4 : kType ≠ kProperties := by decide
  have e5 : kType ≠ kRequired := by decide
  have e6 : kProperties ≠ kRequired := by decide
  -- with type and properties
  obtain ⟨m1, hm1⟩ : ∃ m1, m1 = ensure (ensure m0 kType (.str wObject)) kProperties (.map []) := ⟨_, rfl⟩
  have g1 : ∀ k', AMap.get m1 k' = if k' = kProperties then some ((AMap.get m0 kProperties).getD (.map []))
      else if k' = kType then some ((AMap.get m0 kType).getD (.str wObject)) else AMap.get m0 k' := by
    intro k'
    rw [hm1, ensure_get, ensure_get, ensure_get, if_neg e1]
  have hr1 : AMap.get m1 kRequired = AMap.get m0 kRequired := by rw [g1, if_neg e3, if_neg e2]
  -- with required
  obtain ⟨m2, hm2, hr2, g2⟩ : ∃ m2, nameRequired w req (elemText (.key k)) m1 = .ok m2 ∧
      ((∀ r, AMap.get m2 kRequired = some r → ∃ ks : List Bytes, r = .list (ks.map .str)) ∧
        ∀ k', (∃ r, AMap.get m2 kRequired = some (.list r) ∧ Val.str k' ∈ r) ↔
          (∃ r, AMap.get m0 kRequired = some (.list r) ∧ Val.str k' ∈ r) ∨ (req = true ∧ k' = k)) ∧
      (∀ k', k' ≠ kRequired → AMap.get m2 k' = AMap.get m1 k') := by
    cases req with
    | false =>
      refine ⟨m1, rfl, ⟨by rw [hr1]; exact hr0, fun k' => by rw [hr1]; simp⟩, fun _ _ => rfl⟩
    | true =>
      obtain ⟨m2, h1, h2, ks, h3, h4⟩ := addRequired_ok (w := w) (k := k) (m := m1) (by rw [hr1]; exact hr0)
      refine ⟨m2, h1, ⟨fun r h => ?_, fun k' => ?_⟩, h2⟩
      · rw [h3] at h; cases h; exact ⟨ks, rfl⟩
      · have := h4 k'
        rw [hr1] at this
        constructor
        · rintro ⟨r, h5, h6⟩
          rw [h3] at h5; cases h5
          have h7 : k' ∈ ks := by simpa using h6
          rcases this.1 h7 with h8 | h8
          · exact .inr ⟨rfl, h8⟩
          · exact .inl h8
        · intro h5
          refine ⟨_, h3, ?_⟩
          have h7 : k' ∈ ks := this.2 (by rcases h5 with h5 | ⟨_, h5⟩; exact .inr h5; exact .inl h5)
          simpa using h7
  -- the properties
  obtain ⟨P, hP⟩ : ∃ P, (AMap.get m0 kProperties).getD (.map []) = .map P := by
    cases h : AMap.get m0 kProperties with
    | none => exact ⟨[], rfl⟩
    | some v => obtain ⟨P, rfl⟩ := hp0 v h; exact ⟨P, rfl⟩
  have gp : AMap.get m2 kProperties = some (.map P) := by rw [g2 _ e6, g1, if_pos rfl, hP]
  have hnode : ∀ k', node (.map m0) [k'] = AMap.get P k' := by
    intro k'
    cases h : AMap.get m0 kProperties with
    | none =>
      rw [h] at hP
      have : P = [] := by simpa using hP.symm
      rw [this]
      have h' : getKey? (.map m0) kProperties = none := h
      rw [node, h']; rfl
    | some v =>
      rw [h] at hP
      have : v = .map P := hP
      rw [this] at h
      rw [node_cons_map h]
      cases AMap.get P k' <;> rfl
  have hfc := hf _ rfl
  rw [hnode] at hfc
  refine ⟨AMap.set m2 kProperties (.map (AMap.set P k c')), AMap.set P k c', ?_, ?_, AMap.get_set_self _ _ _, ?_, ?_⟩
  · unfold inObject
    rw [hm0]
    show (nameRequired w req (elemText (.key k)) (ensure (ensure m0 kType (.str wObject)) kProperties (.map []))).bind _ = _
    rw [← hm1, hm2]
    show (match AMap.get m2 kProperties with
      | some (.map ps) => (f ((AMap.get ps (elemText (.key k))).getD (.map []))).bind (fun c =>
          Out.ok (Val.map (AMap.set m2 kProperties (Val.map (AMap.set ps (elemText (.key k)) c)))))
      | _ => Out.throw Err.unexpectedType) = _
    rw [gp]
    show (f ((AMap.get P k).getD (.map []))).bind _ = _
    rw [hfc]
    rfl
  · refine ⟨?_, ⟨_, AMap.get_set_self _ _ _⟩, ?_, ?_⟩
    · rw [AMap.get_set_other _ _ _ _ e4, g2 _ e5, g1, if_neg e4, if_pos rfl]
      cases h : AMap.get m0 kType with
      | none => rfl
      | some t => rw [ht0 t h]; rfl
    · rw [AMap.get_set_other _ _ _ _ e3]; exact hr2.1
    · intro k' hk'
      have a1 : k' ≠ kProperties := by rintro rfl; exact hk' (by decide)
      have a2 : k' ≠ kRequired := by rintro rfl; exact hk' (by decide)
      have a3 : k' ≠ kType := by rintro rfl; exact hk' (by decide)
      rw [AMap.get_set_other _ _ _ _ a1, g2 _ a2, g1, if_neg a1, if_neg a3]
      exact hk0 k' hk'
  · intro k'
    rw [node_cons_map (AMap.get_set_self _ _ _), get_set]
    split
    · rfl
    · rw [hnode]; cases AMap.get P k' <;> rfl
  · intro k'
    have a : Req (.map (AMap.set m2 kProperties (.map (AMap.set P k c')))) [] k' ↔ ∃ r, AMap.get m2 kRequired = some (.list r) ∧ Val.str k' ∈ r := by
      constructor
      · rintro ⟨m, r, h1, h2, h3⟩
        cases h1
        rw [AMap.get_set_other _ _ _ _ e3] at h2
        exact ⟨r, h2, h3⟩
      · rintro ⟨r, h2, h3⟩
        exact ⟨_, r, rfl, by rw [AMap.get_set_other _ _ _ _ e3]; exact h2, h3⟩
    have b : Req (.map m0) [] k' ↔ ∃ r, AMap.get m0 kRequired = some (.list r) ∧ Val.str k' ∈ r := by
      constructor
      · rintro ⟨m, r, h1, h2, h3⟩
        cases h1
        exact ⟨r, h2, h3⟩
      · rintro ⟨r, h2, h3⟩
        exact ⟨_, r, rfl, h2, h3⟩
    rw [a, b]
    exact hr2.2 k'

/-! ## One entry -/

theorem req_cons {m P : List (Bytes × Val)} (h : AMap.get m kProperties = some (.map P)) (k : Bytes) (q : List Bytes) (k' : Bytes) :
    Req (.map m) (k :: q) k' ↔ ∃ c, AMap.get P k = some c ∧ Req c q k' := by
  unfold Req
  rw [node_cons_map h]
  cases AMap.get P k with
  | none => simp
  | some c => simp

/-- The schema after an entry has been added at a path of keys. -/
theorem place_spec {w : World} {req : Bool} {leaf : List (Bytes × Val)}
    (hp : AMap.get leaf kProperties = none) (hr : AMap.get leaf kRequired = none) :
    ∀ (ks : List Bytes) (S : Val), (∀ q X, q <+: ks → q ≠ ks → node S q = some X → Open X) →
      node S ks = none ∨ (ks = [] ∧ S = .map []) →
    ∃ S', place w req (.ok (.map leaf)) (kp ks) S = .ok S' ∧ node S' ks = some (.map leaf) ∧
      (∀ q, ¬ ks <+: q → ¬ q <+: ks → node S' q = node S q) ∧
      (∀ q, q <+: ks → q ≠ ks → ∃ m, node S' q = some (.map m) ∧ Inner m) ∧
      (∀ q, ks <+: q → q ≠ ks → node S' q = none) ∧
      ∀ q k, Req S' q k ↔ Req S q k ∨ (req = true ∧ q ++ [k] <+: ks)
  | [], S, _, hn => by
    have hS : S = .map [] := by
      rcases hn with h | ⟨_, h⟩
      · cases h
      · exact h
    subst hS
    refine ⟨_, rfl, rfl, fun q h => absurd (List.nil_prefix) h, ?_, ?_, ?_⟩
    · intro q h hne; exact absurd (List.prefix_nil.1 h) hne
    · intro q _ hne
      cases q with
      | nil => exact absurd rfl hne
      | cons k q =>
        have : getKey? (.map leaf) kProperties = none := hp
        rw [node, this]
    · intro q k
      constructor
      · rintro ⟨m, r, h1, h2, _⟩
        cases q with
        | nil => cases h1; rw [hr] at h2; cases h2
        | cons k q =>
          have : getKey? (.map leaf) kProperties = none := hp
          rw [node, this] at h1; cases h1
      · rintro (⟨m, r, h1, h2, _⟩ | ⟨_, h⟩)
        · cases q with
          | nil => cases h1; cases h2
          | cons k q => cases h1
        · exact absurd (List.prefix_nil.1 h) (by simp)
  | k :: ks, S, hopen, hn => by
    have hS : Open S := hopen [] S List.nil_prefix (by simp) rfl
    obtain ⟨c, hc⟩ : ∃ c, c = (node S [k]).getD (.map []) := ⟨_, rfl⟩
    -- the child before
    have hchild : ∀ q, (node S [k]).isSome → node S (k :: q) = node c q := by
      intro q h
      have e : k :: q = [k] ++ q := rfl
      rw [e, node_append]
      cases h' : node S [k] with
      | none => rw [h'] at h; cases h
      | some x => rw [h'] at hc; rw [hc]; rfl
    have hnone : ∀ q, node S [k] = none → node S (k :: q) = none := by
      intro q h
      have e : k :: q = [k] ++ q := rfl
      rw [e, node_append, h]; rfl
    have hc0 : node S [k] = none → c = .map [] := by intro h; rw [hc, h]; rfl
    obtain ⟨c', hplace, hleaf, hother, hinner, hbelow, hreq⟩ := place_spec (w := w) (req := req) hp hr ks c
      (by
        intro q X hq hne hX
        cases h : node S [k] with
        | none =>
          rw [hc0 h, node_empty] at hX
          split at hX
          · cases hX; exact .inl rfl
          · cases hX
        | some x =>
          refine hopen (k :: q) X (by simpa using hq) (by simpa using hne) ?_
          rw [hchild q (by rw [h]; rfl)]; exact hX)
      (by
        cases h : node S [k] with
        | none =>
          rw [hc0 h, node_empty]
          by_cases e : ks = []
          · exact .inr ⟨e, rfl⟩
          · exact .inl (if_neg e)
        | some x =>
          rcases hn with hn | ⟨hn, _⟩
          · rw [hchild ks (by rw [h]; rfl)] at hn; exact .inl hn
          · cases hn)
    obtain ⟨m, P', hin, hm, hP', hnode, hr'⟩ := inObject_ok (w := w) (req := req) (k := k) (f := place w req (.ok (.map leaf)) (kp ks)) hS
      (c' := c') (by intro c0 h0; rw [h0, ← hc]; exact hplace)
    have hk : ∀ q, node (.map m) (k :: q) = node c' q := by
      intro q
      have e : k :: q = [k] ++ q := rfl
      rw [e, node_append, hnode, if_pos rfl]; rfl
    have hk' : ∀ k' q, k' ≠ k → node (.map m) (k' :: q) = node S (k' :: q) := by
      intro k' q hne
      have e : k' :: q = [k'] ++ q := rfl
      rw [e, node_append, node_append, hnode, if_neg hne]
    refine ⟨.map m, ?_, ?_, ?_, ?_, ?_, ?_⟩
    · show place w req _ (.key k :: kp ks) S = _
      rw [place_key hS]; exact hin
    · rw [hk]; exact hleaf
    · intro q h1 h2
      cases q with
      | nil => exact absurd List.nil_prefix h2
      | cons k' q =>
        by_cases hkk : k' = k
        · subst hkk
          have h3 : ¬ ks <+: q := fun h => h1 (by simpa using h)
          have h4 : ¬ q <+: ks := fun h => h2 (by simpa using h)
          rw [hk, hother q h3 h4]
          cases h : node S [k'] with
          | none =>
            rw [hnone q h, hc0 h, node_empty, if_neg]
            rintro rfl; exact h4 List.nil_prefix
          | some x => rw [hchild q (by rw [h]; rfl)]
        · exact hk' k' q hkk
    · intro q h1 h2
      cases q with
      | nil => exact ⟨m, rfl, hm⟩
      | cons k' q =>
        have h3 := List.cons_prefix_cons.1 h1
        obtain ⟨rfl, h4⟩ := h3
        rw [hk]
        exact hinner q h4 (fun e => h2 (by rw [e]))
    · intro q h1 h2
      cases q with
      | nil => exact absurd (List.prefix_nil.1 h1) (by simp)
      | cons k' q =>
        obtain ⟨rfl, h4⟩ := List.cons_prefix_cons.1 h1
        rw [hk]
        exact hbelow q h4 (fun e => h2 (by rw [e]))
    · intro q k'
      cases q with
      | nil =>
        rw [hr' k']
        have : [] ++ [k'] <+: k :: ks ↔ k' = k := by
          simp [List.cons_prefix_cons]
        rw [this]
      | cons k0 q =>
        by_cases hkk : k0 = k
        · subst hkk
          have e1 : Req (.map m) (k0 :: q) k' ↔ Req c' q k' := by unfold Req; rw [hk]
          have e2 : k0 :: q ++ [k'] <+: k0 :: ks ↔ q ++ [k'] <+: ks := by simp
          rw [e1, hreq, e2]
          cases h : node S [k0] with
          | none =>
            have a : ¬ Req S (k0 :: q) k' := by
              rintro ⟨m, r, h1, _⟩; rw [hnone q h] at h1; cases h1
            have b : ¬ Req c q k' := by
              rintro ⟨m, r, h1, h2, _⟩
              rw [hc0 h, node_empty] at h1
              split at h1
              · cases h1; cases h2
              · cases h1
            simp only [a, b, false_or]
          | some x =>
            have a : Req S (k0 :: q) k' ↔ Req c q k' := by
              unfold Req; rw [hchild q (by rw [h]; rfl)]
            rw [a]
        · have e1 : Req (.map m) (k0 :: q) k' ↔ Req S (k0 :: q) k' := by unfold Req; rw [hk' k0 q hkk]
          have e2 : ¬ (k0 :: q ++ [k'] <+: k :: ks) := by
            intro h; exact hkk (List.cons_prefix_cons.1 h).1
          rw [e1]
          exact ⟨.inl, fun h => h.elim id (fun h => absurd h.2 e2)⟩

/-! ## All entries -/

/-- An entry as the schema sees it: its path, whether it is required, and the schema of its value. -/
structure Leaf where
  ks : List Bytes
  req : Bool
  sch : List (Bytes × Val)

/-- The schema holds these entries and nothing else. -/
structure Tree (L : List Leaf) (S : Val) : Prop where
  only : ∀ q X, node S q = some X → (q = [] ∧ L = [] ∧ X = .map []) ∨ (∃ e ∈ L, e.ks = q ∧ X = .map e.sch) ∨
    ((∃ e ∈ L, q <+: e.ks ∧ q ≠ e.ks) ∧ ∃ m, X = .map m ∧ Inner m)
  leaf : ∀ e ∈ L, node S e.ks = some (.map e.sch)
  req : ∀ q k, Req S q k ↔ ∃ e ∈ L, e.req = true ∧ q ++ [k] <+: e.ks

theorem Tree.nil : Tree [] (.map []) := by
  refine ⟨?_, nofun, ?_⟩
  · intro q X h
    rw [node_empty] at h
    split at h
    · next e => cases h; exact .inl ⟨e, rfl, rfl⟩
    · cases h
  · intro q k
    constructor
    · rintro ⟨m, r, h1, h2, _⟩
      rw [node_empty] at h1
      split at h1
      · cases h1; cases h2
      · cases h1
    · rintro ⟨e, h, _⟩; cases h

/-- The paths part. -/
def Parted (p q : List Bytes) : Prop := ¬ p <+: q ∧ ¬ q <+: p

/-- Adding an entry. -/
theorem Tree.place {L : List Leaf} {S : Val} (h : Tree L S) {w : World} (e : Leaf)
    (hp : AMap.get e.sch kProperties = none) (hr : AMap.get e.sch kRequired = none)
    (hpart : ∀ e' ∈ L, Parted e'.ks e.ks) :
    ∃ S', place w e.req (.ok (.map e.sch)) (kp e.ks) S = .ok S' ∧ Tree (L ++ [e]) S' := by
  obtain ⟨S', h1, h2, h3, h4, h5, h6⟩ := place_spec (w := w) (req := e.req) hp hr e.ks S
    (by
      intro q X hq hne hX
      rcases h.only q X hX with ⟨_, _, rfl⟩ | ⟨e', he', rfl, rfl⟩ | ⟨_, m, rfl, hm⟩
      · exact .inl rfl
      · exact absurd hq (hpart e' he').1
      · exact .inr ⟨m, rfl, hm⟩)
    (by
      cases hX : node S e.ks with
      | none => exact .inl rfl
      | some X =>
        rcases h.only _ X hX with ⟨hk, _, hX'⟩ | ⟨e', he', hk, _⟩ | ⟨⟨e', he', hk, _⟩, _⟩
        · rw [hk] at hX; cases hX; exact .inr ⟨hk, hX'⟩
        · exact absurd (hk ▸ List.prefix_refl _) (hpart e' he').1
        · exact absurd hk (hpart e' he').2)
  refine ⟨S', h1, ?_, ?_, ?_⟩
  · intro q X hX
    by_cases hq : q <+: e.ks
    · by_cases hne : q = e.ks
      · rw [hne, h2] at hX; cases hX
        exact .inr (.inl ⟨e, by simp, hne.symm, rfl⟩)
      · obtain ⟨m, hm, hi⟩ := h4 q hq hne
        rw [hm] at hX; cases hX
        exact .inr (.inr ⟨⟨e, by simp, hq, hne⟩, m, rfl, hi⟩)
    · by_cases hq' : e.ks <+: q
      · have hne : q ≠ e.ks := by rintro rfl; exact hq (List.prefix_refl _)
        rw [h5 q hq' hne] at hX; cases hX
      · rw [h3 q hq' hq] at hX
        rcases h.only q X hX with ⟨rfl, _⟩ | ⟨e', he', hk, hX'⟩ | ⟨⟨e', he', hk⟩, hX'⟩
        · exact absurd List.nil_prefix hq
        · exact .inr (.inl ⟨e', by simp [he'], hk, hX'⟩)
        · exact .inr (.inr ⟨⟨e', by simp [he'], hk⟩, hX'⟩)
  · intro e' he'
    rcases List.mem_append.1 he' with he' | he'
    · rw [h3 e'.ks (hpart e' he').2 (hpart e' he').1]; exact h.leaf e' he'
    · rw [List.mem_singleton.1 he']; exact h2
  · intro q k
    rw [h6 q k, h.req q k]
    constructor
    · rintro (⟨e', he', hk⟩ | ⟨hk, hk'⟩)
      · exact ⟨e', by simp [he'], hk⟩
      · exact ⟨e, by simp, hk, hk'⟩
    · rintro ⟨e', he', hk⟩
      rcases List.mem_append.1 he' with he' | he'
      · exact .inl ⟨e', he', hk⟩
      · rw [List.mem_singleton.1 he'] at hk; exact .inr hk

/-! ## The values -/

end Verif.Args
