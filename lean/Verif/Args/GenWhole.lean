import Verif.Args.GenIff
/-!
# The schema of a whole parser
-/

namespace Verif.Args
open Verif JsonDrv Schema

/-- The entry as the schema sees it. -/
def EntryLeaf (w : World) (s : St) (id : Int32) (e : Leaf) : Prop :=
  ∃ o, s.entry id = some o ∧ o.path = kp e.ks ∧ e.req = o.cfg.required ∧ valueSchema w o.cfg = .ok (.map e.sch)

theorem kp_inj {p q : List Bytes} (h : kp p = kp q) : p = q := by
  have h1 : p <+: q := kp_prefix.1 (by rw [h]; exact List.prefix_refl _)
  have h2 : q <+: p := kp_prefix.1 (by rw [h]; exact List.prefix_refl _)
  exact h1.eq_of_length_le h2.length_le

/-- The entries of the parser all find their place. -/
theorem placeAll_ok {w : World} {s : St} (pl : Plain w s) : ∀ (ids : List Int32) (LP : List (Int32 × Leaf)) (S : Val),
    Tree (LP.map (·.2)) S → (∀ p ∈ LP, EntryLeaf w s p.1 p.2) → (LP.map (·.1) ++ ids).Nodup → (∀ id ∈ ids, ∃ o, s.entry id = some o) →
    ∃ (LP' : List (Int32 × Leaf)) (S' : Val), placeAll w s ids S = .ok S' ∧ Tree (LP'.map (·.2)) S' ∧ (∀ p ∈ LP', EntryLeaf w s p.1 p.2) ∧ LP'.map (·.1) = LP.map (·.1) ++ ids
  | [], LP, S, hT, hL, _, _ => ⟨LP, S, rfl, hT, hL, by simp⟩
  | id :: ids, LP, S, hT, hL, hn, hk => by
    obtain ⟨o, ho⟩ := hk id (by simp)
    obtain ⟨ks, hks⟩ := exists_kp (pl.keys id o ho)
    obtain ⟨m, hm, hkeys⟩ := valueSchema_keys (w := w) (pl.settings id o ho)
    obtain ⟨S1, h1, h2⟩ := hT.place (w := w) ⟨ks, o.cfg.required, m⟩ (hkeys _ (by decide)) (hkeys _ (by decide)) (by
      intro e he
      obtain ⟨p, hp, rfl⟩ := List.mem_map.1 he
      obtain ⟨o', ho', hpath, _⟩ := hL p hp
      have hne : p.1 ≠ id := by
        intro e
        have := (List.nodup_append.1 hn).2.2 p.1 (List.mem_map_of_mem hp) id (by simp)
        exact this e
      have := pl.apart p.1 id o' o ho' ho hne
      rw [hpath, hks, diverge_kp] at this
      exact this)
    have e1 : LP.map (·.2) ++ [⟨ks, o.cfg.required, m⟩] = (LP ++ [(id, (⟨ks, o.cfg.required, m⟩ : Leaf))]).map (·.2) := by simp
    rw [e1] at h2
    obtain ⟨LP', S', h3, h4, h5, h6⟩ := placeAll_ok pl ids (LP ++ [(id, ⟨ks, o.cfg.required, m⟩)]) S1 h2
      (by
        intro p hp
        rcases List.mem_append.1 hp with hp | hp
        · exact hL p hp
        · rw [List.mem_singleton.1 hp]
          exact ⟨o, ho, hks, rfl, hm⟩)
      (by simpa using hn) (fun i hi => hk i (by simp [hi]))
    refine ⟨LP', S', ?_, h4, h5, by rw [h6]; simp⟩
    rw [placeAll, ho]
    dsimp only
    rw [hm, hks, h1]
    exact h3

/-- The path of a member. -/
def pathOf (s : St) (id : Int32) : VPath := ((s.entry id).map (·.path)).getD []

theorem memberPaths_ok {s : St} : ∀ {ids : List Int32}, (∀ id ∈ ids, ∃ o, s.entry id = some o) →
    memberPaths s ids = .ok (ids.map (pathOf s))
  | [], _ => rfl
  | id :: ids, h => by
    obtain ⟨o, ho⟩ := h id (by simp)
    rw [memberPaths, ho]
    dsimp only
    rw [memberPaths_ok (fun i hi => h i (by simp [hi]))]
    simp [pathOf, ho]

/-- The schema a group contributes. -/
def groupPart (s : St) (g : Group) : Val := .map [(kOneOf, .list (groupCases g.required (g.members.map (pathOf s))))]

theorem groupSchema_ok {s : St} {g : Group} (hex : g.exclusive = true) {m : List (Bytes × Val)} {xs : List Val}
    (hk : ∀ a ∈ g.members, ∃ o, s.entry a = some o) (hens : AMap.get (ensure m kAllOf (.list [])) kAllOf = some (.list xs)) :
    groupSchema s g (.map m) = .ok (.map (AMap.set (ensure m kAllOf (.list [])) kAllOf (.list (xs ++ [groupPart s g])))) := by
  unfold groupSchema
  rw [if_pos hex, memberPaths_ok hk]
  show (match AMap.get (ensure m kAllOf (.list [])) kAllOf with
    | some (.list xs) => Out.ok (Val.map (AMap.set (ensure m kAllOf (.list [])) kAllOf
        (Val.list (xs ++ [Val.map [(kOneOf, Val.list (groupCases g.required (g.members.map (pathOf s))))]]))))
    | _ => Out.throw Err.unexpectedType) = _
  rw [hens]
  rfl

theorem groupSchemas_ok {s : St} : ∀ (gs : List (Bytes × Group)) (m : List (Bytes × Val)) (xs : List Val),
    (∀ n g, (n, g) ∈ gs → ∀ a ∈ g.members, ∃ o, s.entry a = some o) →
    (AMap.get m kAllOf = none ∧ xs = [] ∨ AMap.get m kAllOf = some (.list xs)) →
    ∃ m2 ys, groupSchemas s gs (.map m) = .ok (.map m2) ∧ (∀ k, k ≠ kAllOf → AMap.get m2 k = AMap.get m k) ∧
      (AMap.get m2 kAllOf = none ∧ ys = [] ∨ AMap.get m2 kAllOf = some (.list ys)) ∧
      ∀ y, y ∈ ys ↔ y ∈ xs ∨ ∃ n g, (n, g) ∈ gs ∧ g.exclusive = true ∧ y = groupPart s g
  | [], m, xs, _, hx => ⟨m, xs, rfl, fun _ _ => rfl, hx, fun y => by simp⟩
  | (n, g) :: gs, m, xs, hk, hx => by
    rw [groupSchemas]
    by_cases hex : g.exclusive = true
    · have hens : AMap.get (ensure m kAllOf (.list [])) kAllOf = some (.list xs) := by
        rw [ensure_get, if_pos rfl]
        rcases hx with ⟨h, rfl⟩ | h
        · rw [h]; rfl
        · rw [h]; rfl
      rw [groupSchema_ok hex (hk n g (by simp)) hens]
      dsimp only
      obtain ⟨m2, ys, h1, h2, h3, h4⟩ := groupSchemas_ok gs (AMap.set (ensure m kAllOf (.list [])) kAllOf (.list (xs ++ [groupPart s g]))) (xs ++ [groupPart s g])
        (fun n g hg => hk n g (by simp [hg])) (.inr (AMap.get_set_self ..))
      refine ⟨m2, ys, h1, ?_, h3, ?_⟩
      · intro k hne
        rw [h2 k hne, AMap.get_set_other _ _ _ _ hne, ensure_get, if_neg hne]
      · intro y
        rw [h4 y]
        constructor
        · rintro (h | ⟨n', g', hg, h⟩)
          · rcases List.mem_append.1 h with h | h
            · exact .inl h
            · exact .inr ⟨n, g, by simp, hex, List.mem_singleton.1 h⟩
          · exact .inr ⟨n', g', by simp [hg], h⟩
        · rintro (h | ⟨n', g', hg, h, e⟩)
          · exact .inl (by simp [h])
          · rcases List.mem_cons.1 hg with hg | hg
            · cases hg; exact .inl (by simp [e])
            · exact .inr ⟨n', g', hg, h, e⟩
    · have e : groupSchema s g (.map m) = .ok (.map m) := by unfold groupSchema; rw [if_neg hex]
      rw [e]
      dsimp only
      obtain ⟨m2, ys, h1, h2, h3, h4⟩ := groupSchemas_ok gs m xs (fun n g hg => hk n g (by simp [hg])) hx
      refine ⟨m2, ys, h1, h2, h3, ?_⟩
      intro y
      rw [h4 y]
      constructor
      · rintro (h | ⟨n', g', hg, h⟩)
        · exact .inl h
        · exact .inr ⟨n', g', by simp [hg], h⟩
      · rintro (h | ⟨n', g', hg, h, e⟩)
        · exact .inl h
        · rcases List.mem_cons.1 hg with hg | hg
          · cases hg; exact absurd h hex
          · exact .inr ⟨n', g', hg, h, e⟩

/-- What the schema says, entry by entry. -/
structure Says₁ (w : World) (E : Env) (s : St) (v : Val) : Prop where
  maps : ∀ a o q d, s.entry a = some o → q <+: o.path → q ≠ o.path → getPath? v q = some d → d.ty = .map
  values : ∀ a o x m, s.entry a = some o → getPath? v o.path = some x → valueSchema w o.cfg = .ok (.map m) →
    Acc (validate E (101 - o.path.length) o.path.length (.map m) x)
  required : ∀ a o, s.entry a = some o → o.cfg.required = true → (getPath? v o.path).isSome
  groups : ∀ n g, (n, g) ∈ s.groups → g.exclusive = true →
    (g.members.filter fun a => (getPath? v (pathOf s a)).isSome).length ≤ 1 ∧
      (g.required = true → (g.members.filter fun a => (getPath? v (pathOf s a)).isSome).length = 1)

theorem prefix_kp {q : VPath} {ks : List Bytes} (h : q <+: kp ks) : ∃ r, q = kp r ∧ r <+: ks := by
  obtain ⟨t, ht⟩ := h
  obtain ⟨r, hr⟩ : ∃ r, q = kp r := exists_kp (fun e he => by
    have : e ∈ kp ks := by rw [← ht]; simp [he]
    obtain ⟨k, _, hk⟩ := List.mem_map.1 this
    exact ⟨k, hk.symm⟩)
  exact ⟨r, hr, kp_prefix.1 (by rw [← hr]; exact ⟨t, ht⟩)⟩

/-- The schema of a parser accepts exactly the values that satisfy it entry by entry. -/
theorem schema_iff {w : World} {cs : List Call} {s : St} (hs : Reached cs s.reg) (pl : Plain w s) :
    ∃ M, generateSchema w s = .ok (.map M) ∧ ∀ E v, SortedAbove s v →
      (alone E (.map M) v = .accept ↔ Says₁ w E s v) := by
  have hr := reached_ready hs
  -- the entries
  obtain ⟨LP, S, h1, hT, hL, hids⟩ : ∃ (LP : List (Int32 × Leaf)) (S : Val), (placeAll w s s.reg.options (.map [])).bind (placeAll w s s.reg.arguments) = .ok S ∧
      Tree (LP.map (·.2)) S ∧ (∀ p ∈ LP, EntryLeaf w s p.1 p.2) ∧ LP.map (·.1) = s.reg.options ++ s.reg.arguments := by
    have hn := hr.inv.nodup
    obtain ⟨LP, S, a1, a2, a3, a4⟩ := placeAll_ok pl s.reg.options [] (.map []) Tree.nil nofun (by simpa using (List.nodup_append.1 hn).1)
      (fun id h => hr.inv.known id (by simp [h]))
    obtain ⟨LP', S', b1, b2, b3, b4⟩ := placeAll_ok pl s.reg.arguments LP S a2 a3 (by rw [a4]; simpa using hn)
      (fun id h => hr.inv.known id (by simp [h]))
    refine ⟨LP', S', ?_, b2, b3, by rw [b4, a4]; simp⟩
    rw [a1]; exact b1
  have hleaf : ∀ a o, s.entry a = some o → ∃ e ∈ LP.map (·.2), o.path = kp e.ks ∧ e.req = o.cfg.required ∧ valueSchema w o.cfg = .ok (.map e.sch) := by
    intro a o ho
    have h2 := (hr.inv.listed a o ho).1
    rw [← hids] at h2
    obtain ⟨p, hp, rfl⟩ := List.mem_map.1 h2
    obtain ⟨o', ho', h3⟩ := hL p hp
    rw [ho] at ho'; cases ho'
    exact ⟨p.2, List.mem_map_of_mem hp, h3⟩
  have hentry : ∀ e ∈ LP.map (·.2), ∃ a o, s.entry a = some o ∧ o.path = kp e.ks ∧ e.req = o.cfg.required ∧ valueSchema w o.cfg = .ok (.map e.sch) := by
    intro e he
    obtain ⟨p, hp, rfl⟩ := List.mem_map.1 he
    obtain ⟨o, h⟩ := hL p hp
    exact ⟨p.1, o, h⟩
  generalize LP.map (·.2) = L at hT hleaf hentry
  have hpart' : ∀ e ∈ L, ∀ e' ∈ L, e.ks <+: e'.ks → e = e' := by
    intro e he e' he' hpre
    obtain ⟨a, o, ha, h2, h3, h4⟩ := hentry e he
    obtain ⟨b, o', hb, h5, h6, h7⟩ := hentry e' he'
    by_cases hab : a = b
    · subst hab
      rw [ha] at hb; cases hb
      rw [h2] at h5
      rw [h4] at h7
      have e1 := kp_inj h5
      have e2 : e.sch = e'.sch := by injection h7 with h7; injection h7
      cases e; cases e'
      simp_all
    · have := pl.apart a b o o' ha hb hab
      rw [h2, h5, diverge_kp] at this
      exact absurd hpre this.1
  have hpart : ∀ e ∈ L, ∀ e' ∈ L, e.ks <+: e'.ks → e.ks = e'.ks := fun e he e' he' h => by rw [hpart' e he e' he' h]
  have hne : ∀ e ∈ L, ∀ e' ∈ L, e.ks = e'.ks → e = e' := fun e he e' he' h => hpart' e he e' he' (by rw [h]; exact List.prefix_refl _)
  have hlen : ∀ e ∈ L, e.ks.length ≤ 95 := by
    intro e he
    obtain ⟨a, o, ha, h2, _⟩ := hentry e he
    have := pl.short a o ha
    rw [h2] at this
    simpa [kp] using this
  have hroot : ∀ e ∈ L, e.ks ≠ [] := by
    intro e he h0
    obtain ⟨a, o, ha, h2, _⟩ := hentry e he
    rw [h0] at h2
    exact hr.nonempty a o ha h2
  -- the root
  obtain ⟨m, rfl, hm⟩ : ∃ m, S = .map m ∧ ((L = [] ∧ m = []) ∨ ((∃ e ∈ L, [] <+: e.ks ∧ [] ≠ e.ks) ∧ Inner m)) := by
    rcases hT.only [] S rfl with ⟨_, h2, h3⟩ | ⟨e, he, h2, _⟩ | ⟨h2, m, h3, h4⟩
    · exact ⟨[], h3, .inl ⟨h2, rfl⟩⟩
    · exact absurd h2 (hroot e he)
    · exact ⟨m, h3, .inr ⟨h2, h4⟩⟩
  have hk0 : KeysIn m innerKeys := by
    rcases hm with ⟨_, rfl⟩ | ⟨_, h⟩
    · exact KeysIn.nil _
    · exact h.keys
  obtain ⟨M, ys, hM, hM1, hM2, hM3⟩ := groupSchemas_ok (s := s) s.groups m [] (fun n g hg => (pl.members n g hg).2)
    (.inl ⟨hk0 _ (by decide), rfl⟩)
  refine ⟨M, ?_, fun E v hsort => ?_⟩
  · show (placeAll w s s.reg.options (.map [])).bind (fun a => (placeAll w s s.reg.arguments a).bind (groupSchemas s s.groups)) = _
    have hb : ∀ (x : Out Val) (f g : Val → Out Val), x.bind (fun a => (f a).bind g) = (x.bind f).bind g := by
      intro x f g; cases x <;> rfl
    rw [hb, h1]
    exact hM
  -- the verdict at the root
  have hsort' : ∀ q m, (∃ e ∈ L, q <+: e.ks ∧ q ≠ e.ks) → getPath? v (kp q) = some (.map m) → AMap.Sorted m := by
    rintro q m ⟨e, he, h2, h3⟩ h4
    obtain ⟨a, o, ha, h5, _⟩ := hentry e he
    exact hsort a o (kp q) m ha (by rw [h5]; exact kp_prefix.2 h2) (by rw [h5]; intro h; exact h3 (kp_inj h)) h4
  have hkM : KeysIn M (innerKeys ++ [kAllOf]) := by
    intro k hk
    have h2 : k ≠ kAllOf := by rintro rfl; exact hk (by decide)
    rw [hM1 k h2]
    exact hk0 k (fun h => hk (List.mem_append_left _ h))
  have hall : ∀ (sub : Val → Val → Vd), (∀ y, AMap.get M kAllOf = some y → ∃ ss, y = .list ss ∧ ∀ s ∈ ss, sub s v = .accept) ↔
      ∀ n g, (n, g) ∈ s.groups → g.exclusive = true → sub (groupPart s g) v = .accept := by
    intro sub
    constructor
    · intro h n g hg hex
      have hy : groupPart s g ∈ ys := (hM3 _).2 (.inr ⟨n, g, hg, hex, rfl⟩)
      rcases hM2 with ⟨_, rfl⟩ | h2
      · cases hy
      · obtain ⟨ss, h3, h4⟩ := h _ h2
        cases h3
        exact h4 _ hy
    · intro h y hy
      rcases hM2 with ⟨h2, _⟩ | h2
      · rw [h2] at hy; cases hy
      · rw [h2] at hy; cases hy
        refine ⟨ys, rfl, fun x hx => ?_⟩
        rcases (hM3 x).1 hx with h3 | ⟨n, g, hg, hex, rfl⟩
        · cases h3
        · exact h n g hg hex
  have hverdict : alone E (.map M) v = .accept ↔ ConfAt E L v [] ∧
      ∀ n g, (n, g) ∈ s.groups → g.exclusive = true → verdict (validate E 100 1 (groupPart s g) v) = .accept := by
    have e : alone E (.map M) v = verdict (body E (validate E 100 1) M v) := by
      unfold alone
      rw [show recursionLimit + 1 = 101 from rfl, validate, if_neg (by unfold recursionLimit; omega)]
    rw [e, verdict_accept, acc_body]
    rcases hm with ⟨rfl, rfl⟩ | ⟨hex, hin⟩
    · have hc : ConfAt E [] v [] := ⟨nofun, nofun, nofun⟩
      rw [← hall (sub (validate E 100 1))]
      constructor
      · intro hv; exact ⟨hc, fun y hy => hv.combinations.allOf y hy⟩
      · rintro ⟨_, h⟩
        have hno : ∀ k v, k ≠ kAllOf → ¬ has M k v := by
          intro k v hk h
          unfold has at h
          rw [hM1 k hk] at h
          cases h
        refine valid_inner (hkM.mono (by decide)) ?_ ?_ ?_ ⟨?_, ?_, ?_, ?_⟩
        · intro y hy; exact absurd hy (hno _ _ (by decide))
        · intro y hy; exact absurd hy (hno _ _ (by decide))
        · intro y hy; exact absurd hy (hno _ _ (by decide))
        · intro y hy; exact h y hy
        · intro y hy; exact absurd hy (hno _ _ (by decide))
        · intro y hy; exact absurd hy (hno _ _ (by decide))
        · intro y hy; exact absurd hy (hno _ _ (by decide))
    · rw [level (E := E) (sub := sub (validate E 100 1)) hT hpart hsort' (q := []) rfl hin rfl hex (m2 := M)
        (fun k hk => hM1 k (by rintro rfl; exact absurd hk (by decide))) hkM (by
          intro k c x hc hx
          have h1 := node_iff hT hpart hlen hne hsort' (E := E) 100 ([] ++ [k]) c x (by simp) (by simp) hc hx
          unfold sub
          rw [verdict_accept]
          exact h1), hall (sub (validate E 100 1))]
  -- entry by entry
  have hconf : ConfAt E L v [] ↔
      (∀ a o q d, s.entry a = some o → q <+: o.path → q ≠ o.path → getPath? v q = some d → d.ty = .map) ∧
      (∀ a o x m, s.entry a = some o → getPath? v o.path = some x → valueSchema w o.cfg = .ok (.map m) →
        Acc (validate E (101 - o.path.length) o.path.length (.map m) x)) ∧
      (∀ a o, s.entry a = some o → o.cfg.required = true → (getPath? v o.path).isSome) := by
    constructor
    · intro hc
      refine ⟨?_, ?_, ?_⟩
      · intro a o q d ho hq hq' hd
        obtain ⟨e, he, h2, _⟩ := hleaf a o ho
        rw [h2] at hq hq'
        obtain ⟨r, rfl, hr'⟩ := prefix_kp hq
        exact hc.maps e he r List.nil_prefix hr' (fun h => hq' (by rw [h])) d hd
      · intro a o x m' ho hx hm'
        obtain ⟨e, he, h2, _, h3⟩ := hleaf a o ho
        rw [h2] at hx ⊢
        have := hc.leaf e he List.nil_prefix x hx
        unfold LeafOk at this
        rw [hm'] at h3
        have e1 : m' = e.sch := by injection h3 with h3; injection h3
        rw [e1]
        simpa [kp] using this
      · intro a o ho hreq
        obtain ⟨e, he, h2, h3, _⟩ := hleaf a o ho
        rw [h2]
        exact hc.req e he List.nil_prefix (by rw [h3]; exact hreq)
    · rintro ⟨h1, h2, h3⟩
      refine ⟨?_, ?_, ?_⟩
      · intro e he r _ hr' hr'' d hd
        obtain ⟨a, o, ho, h4, _⟩ := hentry e he
        exact h1 a o (kp r) d ho (by rw [h4]; exact kp_prefix.2 hr') (by rw [h4]; exact fun h => hr'' (kp_inj h)) hd
      · intro e he _ x hx
        obtain ⟨a, o, ho, h4, _, h5⟩ := hentry e he
        have := h2 a o x e.sch ho (by rw [h4]; exact hx) h5
        rw [h4] at this
        unfold LeafOk
        simpa [kp] using this
      · intro e he _ hreq
        obtain ⟨a, o, ho, h4, h5, _⟩ := hentry e he
        rw [← h4]
        exact h3 a o ho (by rw [← h5]; exact hreq)
  -- groups
  have hgroup : (∀ a o q d, s.entry a = some o → q <+: o.path → q ≠ o.path → getPath? v q = some d → d.ty = .map) →
      ∀ n g, (n, g) ∈ s.groups → (verdict (validate E 100 1 (groupPart s g) v) = .accept ↔
        (g.members.filter fun a => (getPath? v (pathOf s a)).isSome).length ≤ 1 ∧
          (g.required = true → (g.members.filter fun a => (getPath? v (pathOf s a)).isSome).length = 1)) := by
    intro hmaps n g hg
    have hmem := (pl.members n g hg).2
    have hex : ∀ ids : List Int32, (∀ a ∈ ids, ∃ o, s.entry a = some o) → ∃ ps : List (List Bytes), ids.map (pathOf s) = ps.map kp ∧
        (∀ p ∈ ps, ∃ a o, s.entry a = some o ∧ o.path = kp p) ∧
        (ids.filter fun a => (getPath? v (pathOf s a)).isSome).length = (ps.filter fun p => (getPath? v (kp p)).isSome).length := by
      intro ids
      induction ids with
      | nil => intro _; exact ⟨[], rfl, nofun, rfl⟩
      | cons a ids ih =>
        intro h
        obtain ⟨ps, i1, i2, i3⟩ := ih (fun a ha => h a (by simp [ha]))
        obtain ⟨o, ho⟩ := h a (by simp)
        obtain ⟨ks, hks⟩ := exists_kp (pl.keys a o ho)
        have hpo : pathOf s a = kp ks := by unfold pathOf; rw [ho]; exact hks
        refine ⟨ks :: ps, by rw [List.map_cons, List.map_cons, i1, hpo], ?_, ?_⟩
        · intro p hp
          rcases List.mem_cons.1 hp with rfl | hp
          · exact ⟨a, o, ho, hks⟩
          · exact i2 p hp
        · rw [List.filter_cons, List.filter_cons, hpo]
          split
          · rw [List.length_cons, List.length_cons, i3]
          · exact i3
    obtain ⟨ps, i1, i2, i3⟩ := hex g.members hmem
    unfold groupPart
    rw [i1, i3]
    refine group_acc ?_ ?_
    · intro p hp q d' hq hq' hd
      obtain ⟨a, o, ho, h2⟩ := i2 p hp
      have hq1 : kp q <+: o.path := by rw [h2]; exact kp_prefix.2 hq
      have hq2 : kp q ≠ o.path := by rw [h2]; exact fun h => hq' (kp_inj h)
      obtain ⟨dm, rfl⟩ := isMap_of_ty (hmaps a o (kp q) d' ho hq1 hq2 hd)
      exact ⟨dm, rfl, hsort a o (kp q) dm ho hq1 hq2 hd⟩
    · intro p hp
      obtain ⟨a, o, ho, h2⟩ := i2 p hp
      have := pl.short a o ho
      rw [h2] at this
      simpa [kp] using this
  rw [hverdict, hconf]
  constructor
  · rintro ⟨⟨a1, a2, a3⟩, a4⟩
    exact ⟨a1, a2, a3, fun n g hg hex => (hgroup a1 n g hg).1 (a4 n g hg hex)⟩
  · rintro ⟨a1, a2, a3, a4⟩
    exact ⟨⟨a1, a2, a3⟩, fun n g hg hex => (hgroup a1 n g hg).2 (a4 n g hg hex)⟩

end Verif.Args
