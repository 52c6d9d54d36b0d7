import Verif.Args.GenTree
import Verif.Args.ParseOrder
/-!
# The shape of the result of `Parse`
-/

namespace Verif.Args
open Verif JsonDrv Schema

theorem kp_prefix {p q : List Bytes} : kp p <+: kp q ↔ p <+: q := by
  induction p generalizing q with
  | nil => simp [kp]
  | cons a p ih =>
    cases q with
    | nil => simp [kp]
    | cons b q =>
      show PathElem.key a :: kp p <+: PathElem.key b :: kp q ↔ _
      rw [List.cons_prefix_cons, List.cons_prefix_cons, ih]
      simp

theorem diverge_kp {p q : List Bytes} : Diverge (kp p) (kp q) ↔ Parted p q := by
  unfold Diverge Parted
  rw [kp_prefix, kp_prefix]

theorem exists_kp {p : VPath} (h : ∀ e ∈ p, ∃ k, e = .key k) : ∃ ks, p = kp ks := by
  induction p with
  | nil => exact ⟨[], rfl⟩
  | cons e p ih =>
    obtain ⟨k, rfl⟩ := h e (by simp)
    obtain ⟨ks, rfl⟩ := ih (fun e he => h e (by simp [he]))
    exact ⟨k :: ks, rfl⟩

theorem getPath?_key (m : List (Bytes × Val)) (k : Bytes) (q : List Bytes) :
    getPath? (.map m) (kp (k :: q)) = (AMap.get m k).bind (fun c => getPath? c (kp q)) := by
  show getPath? (.map m) (.key k :: kp q) = _
  rw [getPath?]
  show (match AMap.get m k with
    | none => none
    | some c => getPath? c (kp q)) = _
  cases AMap.get m k <;> rfl

/-- Writing one key down a path. -/
theorem setPath_key_cons {V V' x : Val} {k : Bytes} {q : VPath} (h : setPath V (.key k :: q) x = (V', none)) :
    ∃ m0 m' c', (V = .map m0 ∨ (V = .null ∧ m0 = [])) ∧ setPath ((AMap.get m0 k).getD .null) q x = (c', none) ∧
      V' = .map m' ∧ (∀ k', AMap.get m' k' = if k' = k then some c' else AMap.get m0 k') ∧ (AMap.Sorted m0 → AMap.Sorted m') := by
  rw [setPath] at h
  cases V with
  | map m0 =>
    have e1 : getElem? (.map m0) (.key k) = AMap.get m0 k := rfl
    rw [e1] at h
    cases hg : AMap.get m0 k with
    | some c =>
      rw [hg] at h
      dsimp only at h
      rw [Prod.mk.injEq] at h
      refine ⟨m0, AMap.set m0 k (setPath c q x).1, (setPath c q x).1, .inl rfl, ?_, h.1.symm, fun k' => get_set _ _ _ _, fun hs => AMap.sorted_set hs _ _⟩
      rw [hg]; exact Prod.ext rfl h.2
    | none =>
      rw [hg] at h
      dsimp only at h
      split at h
      · next hq =>
        subst hq
        cases h
        exact ⟨m0, AMap.set m0 k x, x, .inl rfl, rfl, rfl, fun k' => get_set _ _ _ _, fun hs => AMap.sorted_set hs _ _⟩
      · have e2 : setElem (.map m0) (.key k) .null = (.map (AMap.set m0 k .null), none) := rfl
        rw [e2] at h
        dsimp only at h
        rw [Prod.mk.injEq] at h
        refine ⟨m0, AMap.set (AMap.set m0 k .null) k (setPath .null q x).1, (setPath .null q x).1, .inl rfl, ?_, h.1.symm, fun k' => ?_,
          fun hs => AMap.sorted_set (AMap.sorted_set hs _ _) _ _⟩
        · rw [hg]; exact Prod.ext rfl h.2
        · rw [get_set, get_set]; split <;> rfl
  | null =>
    have e1 : getElem? .null (.key k) = none := rfl
    rw [e1] at h
    dsimp only at h
    have hs1 : ∀ y : Val, AMap.Sorted [(k, y)] := fun y => by
      have : AMap.Sorted (AMap.set ([] : List (Bytes × Val)) k y) := AMap.sorted_set (by simp [AMap.Sorted]) k y
      exact this
    split at h
    · next hq =>
      subst hq
      cases h
      exact ⟨[], [(k, x)], x, .inr ⟨rfl, rfl⟩, rfl, rfl, fun k' => get_set [] _ _ _, fun _ => hs1 x⟩
    · have e2 : setElem .null (.key k) .null = (.map [(k, .null)], none) := rfl
      rw [e2] at h
      dsimp only at h
      rw [Prod.mk.injEq] at h
      refine ⟨[], AMap.set [(k, .null)] k (setPath .null q x).1, (setPath .null q x).1, .inr ⟨rfl, rfl⟩, Prod.ext rfl h.2, h.1.symm, fun k' => ?_,
        fun _ => AMap.sorted_set (hs1 _) _ _⟩
      rw [get_set]
      split
      · rfl
      · next hne => exact (get_set [] k k' Val.null).trans (if_neg hne)
  | _ =>
    have e1 : ∀ V : Val, (∀ m, V ≠ .map m) → getElem? V (.key k) = none := by
      intro V hV; cases V <;> first | rfl | exact absurd rfl (hV _)
    rw [e1 _ (fun m h => by cases h)] at h
    dsimp only at h
    split at h
    · cases h
    · cases h

/-- What is at a path of keys after a value was stored at another. -/
theorem setPath_keys {x : Val} : ∀ {ks : List Bytes} {V V' : Val}, setPath V (kp ks) x = (V', none) → ∀ q d, getPath? V' (kp q) = some d →
    ks <+: q ∨ (Parted ks q ∧ getPath? V (kp q) = some d) ∨
    (q <+: ks ∧ q ≠ ks ∧ ∃ m, d = .map m ∧ ((∀ m0, getPath? V (kp q) = some (.map m0) → AMap.Sorted m0) → AMap.Sorted m))
  | [], _, _, _, q, _, _ => .inl List.nil_prefix
  | k :: ks, V, V', h, q, d, hq => by
    obtain ⟨m0, m', c', hV, hc, rfl, hget, hsort⟩ := setPath_key_cons (q := kp ks) h
    cases q with
    | nil =>
      refine .inr (.inr ⟨List.nil_prefix, by simp, ?_⟩)
      cases hq
      refine ⟨m', rfl, fun hs => hsort ?_⟩
      rcases hV with rfl | ⟨_, rfl⟩
      · exact hs m0 rfl
      · simp [AMap.Sorted]
    | cons k' q =>
      rw [getPath?_key, hget] at hq
      by_cases hk : k' = k
      · subst hk
        rw [if_pos rfl] at hq
        have hq' : getPath? c' (kp q) = some d := hq
        have hold : ∀ y, y ≠ .null ∨ q ≠ [] → getPath? ((AMap.get m0 k').getD .null) (kp q) = some y → getPath? V (kp (k' :: q)) = some y := by
          intro y hy h1
          cases hg : AMap.get m0 k' with
          | none =>
            rw [hg] at h1
            cases q with
            | nil => cases h1; rcases hy with hy | hy <;> exact absurd rfl hy
            | cons a q => cases h1
          | some c =>
            rw [hg] at h1
            rcases hV with rfl | ⟨_, rfl⟩
            · rw [getPath?_key, hg]; exact h1
            · cases hg
        rcases setPath_keys hc q d hq' with h1 | ⟨h1, h2⟩ | ⟨h1, h2, m, h3, h4⟩
        · exact .inl (by simpa using h1)
        · refine .inr (.inl ⟨?_, hold d (.inr ?_) h2⟩)
          · exact ⟨fun h => h1.1 (by simpa using h), fun h => h1.2 (by simpa using h)⟩
          · rintro rfl; exact h1.2 List.nil_prefix
        · refine .inr (.inr ⟨by simpa using h1, by simpa using h2, m, h3, fun hs => h4 fun m0 hm0 => hs m0 (hold _ (.inl nofun) hm0)⟩)
      · rw [if_neg hk] at hq
        refine .inr (.inl ⟨⟨fun h => hk (List.cons_prefix_cons.1 h).1.symm, fun h => hk (List.cons_prefix_cons.1 h).1⟩, ?_⟩)
        rcases hV with rfl | ⟨_, rfl⟩
        · rw [getPath?_key]; exact hq
        · cases hq

/-- At the paths of keys there are values at these paths and below, and sorted maps above. -/
def Form (Ps : List (List Bytes)) (V : Val) : Prop :=
  ∀ q d, getPath? V (kp q) = some d → (∃ p ∈ Ps, p <+: q) ∨ ((q = [] ∨ ∃ p ∈ Ps, q <+: p ∧ q ≠ p) ∧ ∃ m, d = .map m ∧ AMap.Sorted m)

theorem Form.set {Ps : List (List Bytes)} {V V' x : Val} (h : Form Ps V) {ks : List Bytes} (hpart : ∀ p ∈ Ps, Parted p ks)
    (hs : setPath V (kp ks) x = (V', none)) : Form (Ps ++ [ks]) V' := by
  intro q d hq
  rcases setPath_keys hs q d hq with h1 | ⟨_, h1⟩ | ⟨h1, h2, m, h3, h4⟩
  · exact .inl ⟨ks, by simp, h1⟩
  · rcases h q d h1 with ⟨p, hp, hpq⟩ | ⟨h2, h3⟩
    · exact .inl ⟨p, by simp [hp], hpq⟩
    · refine .inr ⟨?_, h3⟩
      rcases h2 with h2 | ⟨p, hp, hpq⟩
      · exact .inl h2
      · exact .inr ⟨p, by simp [hp], hpq⟩
  · refine .inr ⟨.inr ⟨ks, by simp, h1, h2⟩, m, h3, h4 fun m0 hm0 => ?_⟩
    rcases h q _ hm0 with ⟨p, hp, hpq⟩ | ⟨_, m1, h5, h6⟩
    · exact absurd (hpq.trans h1) (hpart p hp).1
    · cases h5; exact h6

theorem Form.empty : Form [] (.map []) := by
  intro q d hq
  cases q with
  | nil => cases hq; exact .inr ⟨.inl rfl, [], rfl, by simp [AMap.Sorted]⟩
  | cons k q => rw [getPath?_key] at hq; cases hq

/-- The shape of what `FormResult` returns. -/
theorem formResult_form {m : List (Int32 × Opt)} : ∀ {ret v : Val} {Ps : List (List Bytes)}, formResult m ret = .ok v → Form Ps ret →
    (∀ x ∈ m, contributes x.2 → ∃ ks, x.2.path = kp ks ∧ ∀ p ∈ Ps, Parted p ks) →
    (m.Pairwise fun x y => contributes x.2 → contributes y.2 → Diverge x.2.path y.2.path) →
    ∃ Qs, Form (Ps ++ Qs) v ∧ ∀ q ∈ Qs, ∃ x ∈ m, contributes x.2 ∧ x.2.path = kp q := by
  induction m with
  | nil => intro ret v Ps h hF _ _; cases h; exact ⟨[], by simpa using hF, nofun⟩
  | cons x m ih =>
    obtain ⟨k, o⟩ := x
    intro ret v Ps h hF hk hpw
    obtain ⟨hpw1, hpw2⟩ := List.pairwise_cons.1 hpw
    obtain ⟨h1, h2⟩ := formResult_cons k o m ret
    by_cases hc : contributes o
    · rw [h1 hc] at h
      split at h
      · next ret' hsp =>
        obtain ⟨ks, hks, hpart⟩ := hk (k, o) (by simp) hc
        dsimp only at hks
        rw [hks] at hsp
        have hF' := hF.set hpart hsp
        obtain ⟨Qs, hQ, hQ'⟩ := ih h hF' (by
          intro x hx hcx
          obtain ⟨ks', hks', hpart'⟩ := hk x (by simp [hx]) hcx
          refine ⟨ks', hks', fun p hp => ?_⟩
          rcases List.mem_append.1 hp with hp | hp
          · exact hpart' p hp
          · rw [List.mem_singleton.1 hp]
            have := hpw1 x hx hc hcx
            dsimp only at this
            rw [hks, hks', diverge_kp] at this
            exact this) hpw2
        refine ⟨ks :: Qs, by simpa using hQ, ?_⟩
        intro q hq
        rcases List.mem_cons.1 hq with rfl | hq
        · exact ⟨(k, o), by simp, hc, hks⟩
        · obtain ⟨x, hx, hx'⟩ := hQ' q hq
          exact ⟨x, by simp [hx], hx'⟩
      · cases h
    · rw [h2 hc] at h
      obtain ⟨Qs, hQ, hQ'⟩ := ih h hF (fun x hx => hk x (by simp [hx])) hpw2
      refine ⟨Qs, hQ, fun q hq => ?_⟩
      obtain ⟨x, hx, hx'⟩ := hQ' q hq
      exact ⟨x, by simp [hx], hx'⟩

/-- The result of a parser set up plainly: above the entries there are sorted maps, at an entry there is nothing
but what it was given. -/
structure Shaped (s t : St) (v : Val) : Prop where
  above : ∀ q d, getPath? v (kp q) = some d → (q = [] ∨ ∃ a o, s.entry a = some o ∧ kp q <+: o.path ∧ kp q ≠ o.path) →
    ∃ m, d = .map m ∧ AMap.Sorted m
  at_ : ∀ a o x, s.entry a = some o → getPath? v o.path = some x → ∃ o', t.entry a = some o' ∧ o'.cfg = o.cfg ∧ o'.result = x ∧ x ≠ .null ∧ hasResult o.cfg.action = true

theorem apart_shaped {w : World} (hp : 64 ≤ w.p) {fuel : Nat} {cs : List Call} {s t : St} {es : List Event} {rest : List Text} {v : Val}
    (hs : Reached cs s.reg) (h : parse w fuel s es rest = some (.returned t v))
    (hapart : ∀ a b o o', s.entry a = some o → s.entry b = some o' → a ≠ b → Diverge o.path o'.path)
    (hkeys : ∀ a o, s.entry a = some o → ∀ e ∈ o.path, ∃ k, e = .key k) : Shaped s t v := by
  have d := parse_done hp hs h
  have hd : PathsApart s := fun a b o o' h1 h2 h3 _ _ => hapart a b o o' h1 h2 h3
  -- entries that contribute are entries of the parser
  have hold : ∀ x ∈ t.reg.optionMap, contributes x.2 → ∃ r, s.entry x.1 = some { x.2 with result := r } := by
    intro x hx hc
    rcases d.back x.1 x.2 (mem_find d.nodup hx) with h1 | h1
    · exact h1
    · rw [hc.1] at h1; cases h1
  obtain ⟨Qs, hF, hQ⟩ := formResult_form d.form Form.empty
    (by
      intro x hx hc
      obtain ⟨r, h1⟩ := hold x hx hc
      obtain ⟨ks, hks⟩ := exists_kp (hkeys _ _ h1)
      exact ⟨ks, hks, nofun⟩)
    (by
      have : t.reg.optionMap.Pairwise (fun x y => x.1 ≠ y.1) := List.pairwise_map.1 d.nodup
      refine (List.Pairwise.and_mem.1 this).imp ?_
      rintro x y ⟨hx, hy, hne⟩ hcx hcy
      obtain ⟨r, h1⟩ := hold x hx hcx
      obtain ⟨r', h2⟩ := hold y hy hcy
      have := hapart _ _ _ _ h1 h2 hne
      exact this)
  rw [List.nil_append] at hF
  have hQ' : ∀ q ∈ Qs, ∃ a o, s.entry a = some o ∧ o.path = kp q ∧ ∃ o', t.entry a = some o' ∧ contributes o' := by
    intro q hq
    obtain ⟨x, hx, hc, hpath⟩ := hQ q hq
    obtain ⟨r, h1⟩ := hold x hx hc
    exact ⟨x.1, _, h1, hpath, x.2, mem_find d.nodup hx, hc⟩
  constructor
  · intro q d' hq hab
    rcases hF q d' hq with ⟨p, hp', hpq⟩ | ⟨_, h3⟩
    · exfalso
      obtain ⟨a, o, ha, hpath, o1, ho1, _⟩ := hQ' p hp'
      rcases hab with rfl | ⟨b, o', hb, hq1, hq2⟩
      · have := List.prefix_nil.1 hpq
        subst this
        obtain ⟨r, h1⟩ := d.kept a o ha
        exact d.nonempty _ _ h1 hpath
      · by_cases hab : a = b
        · subst hab
          rw [ha] at hb; cases hb
          rw [hpath] at hq1 hq2
          have h1 := kp_prefix.1 hq1
          have : q = p := h1.eq_of_length_le hpq.length_le
          exact hq2 (by rw [this])
        · exact (hapart a b o o' ha hb hab).1 (by rw [hpath]; exact (kp_prefix.2 hpq).trans hq1)
    · exact h3
  · intro a o x ha hx
    obtain ⟨ks, hks⟩ := exists_kp (hkeys a o ha)
    rw [hks] at hx
    have key : ∀ b o' q, s.entry b = some o' → o'.path = kp q → (q <+: ks ∨ ks <+: q) → b = a := by
      intro b o' q hb hpath h1
      refine Decidable.by_contra fun hne => ?_
      have h2 := hapart b a o' o hb ha hne
      rw [hpath, hks, diverge_kp] at h2
      exact h1.elim h2.1 h2.2
    rcases hF ks x hx with ⟨p, hp', hpq⟩ | ⟨h2, _⟩
    · obtain ⟨b, o', hb, hpath, o1, ho1, hc⟩ := hQ' p hp'
      have := key b o' p hb hpath (.inl hpq)
      subst this
      obtain ⟨r, h1⟩ := d.kept b o ha
      rw [ho1] at h1
      have hval := d.value hd ho1 hc.2
      cases h1
      dsimp only at hval
      rw [hks, hx] at hval
      cases hval
      exact ⟨_, ho1, rfl, rfl, hc.2, hc.1⟩
    · exfalso
      rcases h2 with rfl | ⟨p, hp', h3, h4⟩
      · obtain ⟨r, h1⟩ := d.kept a o ha
        exact d.nonempty _ _ h1 hks
      · obtain ⟨b, o', hb, hpath, _⟩ := hQ' p hp'
        have := key b o' p hb hpath (.inr h3)
        subst this
        rw [ha] at hb; cases hb
        rw [hpath] at hks
        have h5 : p <+: ks := kp_prefix.1 (by rw [hks]; exact List.prefix_refl _)
        exact h4 (h3.eq_of_length_le h5.length_le)

theorem parse_shaped {w : World} (hp : 64 ≤ w.p) {fuel : Nat} {cs : List Call} {s t : St} {es : List Event} {rest : List Text} {v : Val}
    (hs : Reached cs s.reg) (h : parse w fuel s es rest = some (.returned t v)) (pl : Plain w s) : Shaped s t v :=
  apart_shaped hp hs h pl.apart pl.keys

end Verif.Args
