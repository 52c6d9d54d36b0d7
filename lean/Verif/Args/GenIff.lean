import Verif.Args.GenAccept
/-!
# What the schema of a parser accepts
-/

namespace Verif.Args
open Verif JsonDrv Schema

/-- The value of an entry satisfies the entry's schema where that stands. -/
def LeafOk (E : Env) (e : Leaf) (x : Val) : Prop := Acc (validate E (101 - e.ks.length) e.ks.length (.map e.sch) x)

/-- What the schema says about the entries below a path. -/
structure ConfAt (E : Env) (L : List Leaf) (v : Val) (q : List Bytes) : Prop where
  maps : ∀ e ∈ L, ∀ r, q <+: r → r <+: e.ks → r ≠ e.ks → ∀ d, getPath? v (kp r) = some d → d.ty = .map
  leaf : ∀ e ∈ L, q <+: e.ks → ∀ x, getPath? v (kp e.ks) = some x → LeafOk E e x
  req : ∀ e ∈ L, q <+: e.ks → e.req = true → (getPath? v (kp e.ks)).isSome

theorem getPath?_snoc (v : Val) (q : List Bytes) (k : Bytes) : getPath? v (kp (q ++ [k])) = (getPath? v (kp q)).bind (fun d => getKey? d k) := by
  have : kp (q ++ [k]) = kp q ++ [.key k] := by simp [kp]
  rw [this, getPath?_append]
  cases getPath? v (kp q) with
  | none => rfl
  | some d =>
    show getPath? d [.key k] = getKey? d k
    rw [getPath?]
    show (match getKey? d k with
      | none => none
      | some c => getPath? c []) = _
    cases getKey? d k <;> rfl

theorem node_of_prefix {S : Val} {p q : List Bytes} (h : p <+: q) (hq : (node S q).isSome) : (node S p).isSome := by
  obtain ⟨r, rfl⟩ := h
  rw [node_append] at hq
  cases hp : node S p with
  | none => rw [hp] at hq; cases hq
  | some X => rfl

theorem snoc_of_prefix {p q : List Bytes} (h : p <+: q) (hne : p ≠ q) : ∃ k, p ++ [k] <+: q := by
  obtain ⟨r, rfl⟩ := h
  cases r with
  | nil => simp at hne
  | cons k r => exact ⟨k, r, by simp⟩

theorem prefix_snoc {p r : List Bytes} {k : Bytes} (h : r <+: p ++ [k]) (hne : r ≠ p ++ [k]) : r <+: p := by
  rcases List.prefix_concat_iff.1 (by simpa using h) with h | h
  · exact absurd h hne
  · exact h

/-- Two prefixes of a path are comparable. -/
theorem prefix_total {p q r : List Bytes} (h1 : p <+: r) (h2 : q <+: r) : p <+: q ∨ q <+: p :=
  List.prefix_or_prefix_of_prefix h1 h2

theorem isMap_of_ty {d : Val} (h : d.ty = .map) : ∃ dm, d = .map dm := by
  cases d <;> simp [Val.ty] at h ⊢

/-- One level of the schema. -/
theorem level {E : Env} {L : List Leaf} {S v : Val} (hT : Tree L S) (hpart : ∀ e ∈ L, ∀ e' ∈ L, e.ks <+: e'.ks → e.ks = e'.ks)
    (hsort : ∀ q m, (∃ e ∈ L, q <+: e.ks ∧ q ≠ e.ks) → getPath? v (kp q) = some (.map m) → AMap.Sorted m)
    {q : List Bytes} {m : List (Bytes × Val)} {d : Val} (hX : node S q = some (.map m)) (hm : Inner m) (hd : getPath? v (kp q) = some d)
    (hq : ∃ e ∈ L, q <+: e.ks ∧ q ≠ e.ks)
    {m2 : List (Bytes × Val)} (hm2 : ∀ k, k ∈ innerKeys → AMap.get m2 k = AMap.get m k) (hk2 : KeysIn m2 (innerKeys ++ [kAllOf]))
    {sub : Val → Val → Vd}
    (ih : ∀ k c x, node S (q ++ [k]) = some c → getPath? v (kp (q ++ [k])) = some x → (sub c x = .accept ↔ ConfAt E L v (q ++ [k]))) :
    Valid E sub m2 d ↔ ConfAt E L v q ∧ ∀ y, AMap.get m2 kAllOf = some y → ∃ ss, y = .list ss ∧ ∀ s ∈ ss, sub s d = .accept := by
  obtain ⟨P, hP⟩ := hm.properties
  have gt : AMap.get m2 kType = some (.str wObject) := by rw [hm2 _ (by decide)]; exact hm.type
  have gp : AMap.get m2 kProperties = some (.map P) := by rw [hm2 _ (by decide)]; exact hP
  have gr : AMap.get m2 kRequired = AMap.get m kRequired := hm2 _ (by decide)
  have hchild : ∀ k, node S (q ++ [k]) = AMap.get P k := by
    intro k
    rw [node_append, hX]
    show node (.map m) [k] = _
    rw [node_cons_map hP]
    cases AMap.get P k <;> rfl
  obtain ⟨e0, he0, hq0, hq0'⟩ := hq
  -- an entry below is below one of the keys
  have hno : ∀ e ∈ L, q <+: e.ks → ∃ k, q ++ [k] <+: e.ks := by
    intro e he h1
    refine snoc_of_prefix h1 ?_
    intro h2
    have h3 := hpart e he e0 he0 (h2 ▸ hq0)
    exact hq0' (h2.trans h3)
  have hsnoc : ∀ dm k, d = .map dm → getPath? v (kp (q ++ [k])) = AMap.get dm k := by
    intro dm k e
    rw [getPath?_snoc, hd, e]; rfl
  constructor
  · intro hv
    have hty : d.ty = .map := typeOk_object_inv (hv.type _ gt)
    obtain ⟨dm, rfl⟩ := isMap_of_ty hty
    have hs := hsort q dm ⟨e0, he0, hq0, hq0'⟩ hd
    -- below a key that is there
    have hbelow : ∀ e ∈ L, ∀ k, q ++ [k] <+: e.ks → ∀ x, AMap.get dm k = some x → ConfAt E L v (q ++ [k]) := by
      intro e he k hk x hx
      have h1 := node_of_prefix hk (by rw [hT.leaf e he]; rfl)
      obtain ⟨c, hc⟩ := Option.isSome_iff_exists.1 h1
      refine (ih k c x hc (by rw [hsnoc dm k rfl]; exact hx)).1 ?_
      rw [hchild] at hc
      exact (hv.object dm rfl).properties k x (AMap.get_mem hx) P c gp hc
    have hget : ∀ k r x, getPath? v (kp (q ++ k :: r)) = some x → ∃ y, AMap.get dm k = some y := by
      intro k r x h
      have e : q ++ k :: r = (q ++ [k]) ++ r := by simp
      have e' : kp ((q ++ [k]) ++ r) = kp (q ++ [k]) ++ kp r := by simp [kp]
      rw [e, e', getPath?_append, hsnoc dm k rfl] at h
      cases h' : AMap.get dm k with
      | none => rw [h'] at h; cases h
      | some y => exact ⟨y, rfl⟩
    refine ⟨⟨?_, ?_, ?_⟩, fun y hy => hv.combinations.allOf y hy⟩
    · intro e he r hr hr' hne d' hd'
      by_cases hqr : q = r
      · subst hqr
        rw [hd] at hd'; cases hd'; rfl
      · obtain ⟨k, hk⟩ := snoc_of_prefix hr hqr
        obtain ⟨r', rfl⟩ := hk
        obtain ⟨y, hy⟩ := hget k r' d' (by simpa using hd')
        exact (hbelow e he k ((List.prefix_append _ _).trans hr') y hy).maps e he _ (List.prefix_append _ _) hr' hne d' hd'
    · intro e he hr x hx
      obtain ⟨k, hk⟩ := hno e he hr
      obtain ⟨r', hr'⟩ := hk
      obtain ⟨y, hy⟩ := hget k r' x (by rw [← hr'] at hx; simpa using hx)
      exact (hbelow e he k ⟨r', hr'⟩ y hy).leaf e he ⟨r', hr'⟩ x hx
    · intro e he hr hreq
      obtain ⟨k, hk⟩ := hno e he hr
      have hR : Req S q k := (hT.req q k).2 ⟨e, he, hreq, hk⟩
      obtain ⟨m', rs, h1, h2, h3⟩ := hR
      rw [hX] at h1; cases h1
      obtain ⟨ks, h4, h5⟩ := (hv.object dm rfl).required _ (gr.trans h2)
      cases h4
      obtain ⟨t, x, h6, h7⟩ := h5 _ h3
      cases h6
      exact (hbelow e he k hk x h7).req e he hk hreq
  · rintro ⟨hc, hall⟩
    have hty : d.ty = .map := hc.maps e0 he0 q (List.prefix_refl _) hq0 hq0' d hd
    obtain ⟨dm, rfl⟩ := isMap_of_ty hty
    have hs := hsort q dm ⟨e0, he0, hq0, hq0'⟩ hd
    refine valid_inner (hk2.mono (by decide)) ?_ ?_ ?_ ⟨?_, ?_, ?_, ?_⟩
    · intro t h
      unfold has at h
      rw [gt] at h; cases h
      exact typeOk_object E dm
    · intro y h
      unfold has at h
      rw [gp] at h; cases h
      refine ⟨P, rfl, ?_⟩
      intro dm' e k x s hmem hs'
      cases e
      have hx := AMap.get_of_mem hs hmem
      refine (ih k s x (by rw [hchild]; exact hs') (by rw [hsnoc dm k rfl]; exact hx)).2 ⟨?_, ?_, ?_⟩
      · intro e he r hr; exact hc.maps e he r ((List.prefix_append _ _).trans hr)
      · intro e he hr; exact hc.leaf e he ((List.prefix_append _ _).trans hr)
      · intro e he hr; exact hc.req e he ((List.prefix_append _ _).trans hr)
    · intro r h
      unfold has at h
      rw [gr] at h
      obtain ⟨ks, rfl⟩ := hm.required r h
      refine ⟨ks, rfl, ?_⟩
      intro dm' e k hk
      cases e
      obtain ⟨e, he, hreq, hpre⟩ := (hT.req q k).1 ⟨m, _, hX, h, List.mem_map_of_mem hk⟩
      have h1 := hc.req e he ((List.prefix_append _ _).trans hpre) hreq
      obtain ⟨r', hr'⟩ := hpre
      have e' : kp ((q ++ [k]) ++ r') = kp (q ++ [k]) ++ kp r' := by simp [kp]
      rw [← hr', e', getPath?_append, hsnoc dm k rfl] at h1
      cases h' : AMap.get dm k with
      | none => rw [h'] at h1; cases h1
      | some y => exact ⟨y, rfl⟩
    · intro y h; exact hall y h
    · intro y h; exact (hk2.no h (by decide)).elim
    · intro y h; exact (hk2.no h (by decide)).elim
    · intro y h; exact (hk2.no h (by decide)).elim

/-- The schema at a path accepts exactly what conforms below it. -/
theorem node_iff {E : Env} {L : List Leaf} {S v : Val} (hT : Tree L S) (hpart : ∀ e ∈ L, ∀ e' ∈ L, e.ks <+: e'.ks → e.ks = e'.ks)
    (hlen : ∀ e ∈ L, e.ks.length ≤ 95) (hne : ∀ e ∈ L, ∀ e' ∈ L, e.ks = e'.ks → e = e')
    (hsort : ∀ q m, (∃ e ∈ L, q <+: e.ks ∧ q ≠ e.ks) → getPath? v (kp q) = some (.map m) → AMap.Sorted m) :
    ∀ fuel q X d, fuel + q.length = 101 → q ≠ [] → node S q = some X → getPath? v (kp q) = some d →
      (Acc (validate E fuel q.length X d) ↔ ConfAt E L v q)
  | 0, q, X, d, hf, hq, hX, hd => by
    exfalso
    rcases hT.only q X hX with ⟨h, _⟩ | ⟨e, he, rfl, _⟩ | ⟨⟨e, he, h, _⟩, _⟩
    · exact hq h
    · have := hlen e he; omega
    · have := hlen e he; have := h.length_le; omega
  | fuel + 1, q, X, d, hf, hq, hX, hd => by
    rcases hT.only q X hX with ⟨h, _⟩ | ⟨e, he, rfl, rfl⟩ | ⟨⟨e, he, h, h'⟩, m, rfl, hm⟩
    · exact absurd h hq
    · have hfl : fuel + 1 = 101 - e.ks.length := by omega
      have hsame : ∀ e' ∈ L, e.ks <+: e'.ks → e' = e := fun e' he' hp => (hne e he e' he' (hpart e he e' he' hp)).symm
      constructor
      · intro h
        refine ⟨?_, ?_, ?_⟩
        · intro e' he' r hr hr' hne' d' _
          have := hsame e' he' (hr.trans hr')
          subst this
          exact absurd (hr'.eq_of_length_le hr.length_le) hne'
        · intro e' he' hr x hx
          have := hsame e' he' hr
          subst this
          rw [hd] at hx; cases hx
          unfold LeafOk
          rw [← hfl]; exact h
        · intro e' he' hr _
          have := hsame e' he' hr
          subst this
          rw [hd]; rfl
      · intro h
        have := h.leaf e he (List.prefix_refl _) d hd
        unfold LeafOk at this
        rw [← hfl] at this
        exact this
    · have hl := hlen e he
      have hl' := h.length_le
      rw [validate, if_neg (by unfold recursionLimit; omega), acc_body]
      have := level (E := E) (sub := sub (validate E fuel (q.length + 1))) hT hpart hsort hX hm hd ⟨e, he, h, h'⟩ (m2 := m) (fun _ _ => rfl)
        (hm.keys.mono (by decide)) (by
          intro k c x hc hx
          have h1 := node_iff hT hpart hlen hne hsort (E := E) fuel (q ++ [k]) c x (by simp; omega) (by simp) hc hx
          rw [List.length_append, List.length_singleton] at h1
          unfold sub
          rw [verdict_accept]
          exact h1)
      rw [this]
      constructor
      · exact fun h => h.1
      · intro h; exact ⟨h, fun y hy => (hm.keys.no hy (by decide)).elim⟩

end Verif.Args
