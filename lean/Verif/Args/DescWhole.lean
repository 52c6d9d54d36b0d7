import Verif.Args.DescGroup
/-!
# Merging a whole description
-/

namespace Verif.Args
open Verif JsonDrv Schema

theorem Both.choose {α β : Type} {R : α → β → Prop} : ∀ (as : List α), (∀ a ∈ as, ∃ b, R a b) → ∃ bs, Both R as bs
  | [], _ => ⟨[], .nil⟩
  | a :: as, h => by
    obtain ⟨b, hb⟩ := h a List.mem_cons_self
    obtain ⟨bs, hbs⟩ := Both.choose as fun x hx => h x (List.mem_cons_of_mem _ hx)
    exact ⟨b :: bs, .cons hb hbs⟩

theorem Both.nodup_right {α β : Type} {R : α → β → Prop} {as bs} (h : Both R as bs) (hf : ∀ a a' b, a ∈ as → a' ∈ as → R a b → R a' b → a = a') (hn : as.Nodup) :
    bs.Nodup := by
  induction h with
  | nil => exact .nil
  | @cons a b as bs h1 h2 ih =>
    have hn' := List.nodup_cons.1 hn
    refine List.nodup_cons.2 ⟨fun hb => ?_, ih (fun x y z hx hy => hf x y z (List.mem_cons_of_mem _ hx) (List.mem_cons_of_mem _ hy)) hn'.2⟩
    obtain ⟨a', ha, ha'⟩ := h2.right hb
    have := hf a a' b List.mem_cons_self (List.mem_cons_of_mem _ ha) h1 ha'
    subst this
    exact hn'.1 ha

theorem Both.nodup_left {α β : Type} {R : α → β → Prop} {as bs} (h : Both R as bs) (hf : ∀ a b b', b ∈ bs → b' ∈ bs → R a b → R a b' → b = b') (hn : bs.Nodup) :
    as.Nodup := by
  induction h with
  | nil => exact .nil
  | @cons a b as bs h1 h2 ih =>
    have hn' := List.nodup_cons.1 hn
    refine List.nodup_cons.2 ⟨fun hb => ?_, ih (fun x y z hy hz => hf x y z (List.mem_cons_of_mem _ hy) (List.mem_cons_of_mem _ hz)) hn'.2⟩
    obtain ⟨b', ha, ha'⟩ := h2.left hb
    have := hf a b b' List.mem_cons_self (List.mem_cons_of_mem _ ha) h1 ha'
    subst this
    exact hn'.1 ha

/-- The texts in a list of members are key paths of these entries. -/
def Names (s : St) (mem : List Val) (ids : List Int32) : Prop :=
  Both (fun v i => ∃ o, v = Val.str (PathM.pathString o.path) ∧ s.entry i = some o ∧ o.path.getLast? ≠ some (.key [])) mem ids

theorem Names.grown {s s' : St} {mem ids is os} (h : Names s mem ids) (hg : Grown s s' is os) : Names s' mem ids :=
  h.imp fun v i ⟨o, h1, h2, h3⟩ => by
    obtain ⟨o', h4, h5⟩ := hg.kept i o h2
    exact ⟨o', by rw [h5.path]; exact h1, h4, by rw [h5.path]; exact h3⟩

/-- All groups of a description. -/
theorem each_groups {w : World} {f : Bytes → List Int32} {ls : List (Bytes × Val)} {gs : List (Bytes × Group)} :
    ∀ {s : St}, Inv s.reg → AMap.Sorted s.groups → AMap.Sorted gs →
    Both (fun e x => e.1 = x.1 ∧ ∃ mem D, e.2 = Val.map D ∧ (∀ k, AMap.get D k = groupSays x.2 mem k) ∧ Names s mem (f x.1)) ls gs →
    ∃ s', each (mergeGroup w) s ls = (s', .ok ()) ∧ Grown s s' [] [] ∧ s'.reg.options = s.reg.options ∧ s'.reg.arguments = s.reg.arguments ∧
      AMap.Sorted s'.groups ∧ ∀ k, find s'.groups k = match find gs k with
        | some g => some (g.over ((find s.groups k).getD .new) (f k))
        | none => find s.groups k := by
  induction ls generalizing gs with
  | nil =>
    intro s hs hg hgs hb
    cases hb
    exact ⟨s, rfl, .refl hs, rfl, rfl, hg, fun k => rfl⟩
  | cons e ls ih =>
    intro s hs hg hgs hb
    cases hb with
    | @cons _ x _ gs h1 hb =>
      obtain ⟨n, d⟩ := e
      obtain ⟨n', g⟩ := x
      obtain ⟨rfl, mem, D, hd, hD, hm⟩ := h1
      simp only at hd hD hm
      subst hd
      obtain ⟨s1, a1, a2, a3, a4, a5, a6⟩ := mergeGroup_described (w := w) hs hg n hD hm
      obtain ⟨s2, b1, b2, b3, b4, b5, b6⟩ := ih (s := s1) a2.inv a5 hgs.2 (hb.imp fun e x ⟨h1, mem, D, h2, h3, h4⟩ => ⟨h1, mem, D, h2, h3, h4.grown a2⟩)
      refine ⟨s2, by rw [each_cons _ _ _ _ _ a1]; exact b1, a2.trans b2, b3.trans a3, b4.trans a4, b5, fun k => ?_⟩
      rw [b6]
      have habove : ∀ k, k = n → find gs k = none := by
        rintro k rfl
        rw [find_get]; exact AMap.get_none_of_above hgs.1
      by_cases e : k = n
      · have := habove k e
        subst e
        rw [this]
        simp only [find, if_true]
        rw [a6, if_pos rfl]
      · simp only [find, if_neg (fun h : n = k => e h.symm)]
        rw [a6, if_neg e]

/-! ## Descriptions -/

theorem describeGroups_both {s : St} {ord : List Int32 → List Int32} : ∀ (gs : List (Bytes × Group)) {ls : List (Bytes × Val)},
    describeGroups s ord gs = .ok ls → Both (fun e x => e.1 = x.1 ∧ describeGroup s ord x.2 = .ok e.2) ls gs
  | [], _, h => by cases h; exact .nil
  | (n, g) :: gs, ls, h => by
    unfold describeGroups at h
    cases hd : describeGroup s ord g with
    | throw e => rw [hd] at h; cases h
    | ub => rw [hd] at h; cases h
    | ok d =>
      rw [hd] at h
      cases hr : describeGroups s ord gs with
      | throw e => rw [hr] at h; cases h
      | ub => rw [hr] at h; cases h
      | ok ds => rw [hr] at h; cases h; exact .cons ⟨rfl, hd⟩ (describeGroups_both gs hr)

theorem describeGroups_ok {s : St} {ord : List Int32 → List Int32} : ∀ (gs : List (Bytes × Group)),
    (∀ n g, (n, g) ∈ gs → ∃ d, describeGroup s ord g = .ok d) → ∃ ls, describeGroups s ord gs = .ok ls
  | [], _ => ⟨[], rfl⟩
  | (n, g) :: gs, h => by
    obtain ⟨d, hd⟩ := h n g List.mem_cons_self
    obtain ⟨ds, hds⟩ := describeGroups_ok gs fun n g hg => h n g (List.mem_cons_of_mem _ hg)
    exact ⟨(n, d) :: ds, by unfold describeGroups; rw [hd, hds]; rfl⟩

theorem get_described {s : St} {ord : List Int32 → List Int32} {gs : List (Bytes × Group)} {ls : List (Bytes × Val)}
    (h : Both (fun e x => e.1 = x.1 ∧ describeGroup s ord x.2 = .ok e.2) ls gs) (k : Bytes) :
    (find gs k = none ∧ AMap.get ls k = none) ∨ ∃ g d, find gs k = some g ∧ AMap.get ls k = some d ∧ describeGroup s ord g = .ok d := by
  induction h with
  | nil => exact .inl ⟨rfl, rfl⟩
  | @cons e x ls gs h1 _ ih =>
    obtain ⟨n, d⟩ := e
    obtain ⟨n', g⟩ := x
    obtain ⟨rfl, hd⟩ := h1
    simp only [find, AMap.get]
    by_cases e : n = k
    · rw [if_pos e, if_pos e]; exact .inr ⟨g, d, rfl, rfl, hd⟩
    · rw [if_neg e, if_neg e]; exact ih

/-- The parts of a description. -/
theorem getDescription_parts {ord : List Int32 → List Int32} {P : Parser} {d : Val} (h : getDescription ord P = .ok d) :
    ∃ os as_ gs, describeOptions P.st P.st.reg.options [] = .ok os ∧ describeArguments P.st P.st.reg.arguments = .ok as_ ∧
      describeGroups P.st ord P.st.groups = .ok gs ∧ mapIn d kOptions = os ∧ listIn d kArguments = as_ ∧ mapIn d kGroups = gs ∧
      getKey? d kTitle = some (.str P.title) ∧ getKey? d kDescription = some (.str P.description) ∧ getKey? d kEpilog = some (.str P.epilog) := by
  unfold getDescription at h
  cases h1 : describeOptions P.st P.st.reg.options [] with
  | throw e => rw [h1] at h; cases h
  | ub => rw [h1] at h; cases h
  | ok os =>
    rw [h1] at h
    cases h2 : describeArguments P.st P.st.reg.arguments with
    | throw e => rw [h2] at h; cases h
    | ub => rw [h2] at h; cases h
    | ok as_ =>
      rw [h2] at h
      cases h3 : describeGroups P.st ord P.st.groups with
      | throw e => rw [h3] at h; cases h
      | ub => rw [h3] at h; cases h
      | ok gs =>
        rw [h3] at h
        cases h
        refine ⟨os, as_, gs, rfl, rfl, rfl, ?_⟩
        have e1 : P.st.reg.options = [] → os = [] := by intro e; rw [e] at h1; cases h1; rfl
        have e2 : P.st.reg.arguments = [] → as_ = [] := by intro e; rw [e] at h2; cases h2; rfl
        have e3 : P.st.groups = [] → gs = [] := by intro e; rw [e] at h3; cases h3; rfl
        have hkey : ∀ k, AMap.get (mergeKeys [(kDescription, .str P.description), (kEpilog, .str P.epilog), (kTitle, .str P.title)]
            (ifSome kOptions P.st.reg.options (.map os) ++ ifSome kArguments P.st.reg.arguments (.list as_) ++ ifSome kGroups P.st.groups (.map gs))) k =
            if k = kGroups ∧ P.st.groups ≠ [] then some (.map gs) else if k = kArguments ∧ P.st.reg.arguments ≠ [] then some (.list as_)
            else if k = kOptions ∧ P.st.reg.options ≠ [] then some (.map os)
            else AMap.get [(kDescription, .str P.description), (kEpilog, .str P.epilog), (kTitle, .str P.title)] k := by
          intro k
          have hone : ∀ {α : Type} (m : List (Bytes × Val)) (k' : Bytes) (xs : List α) (v : Val),
              AMap.get (mergeKeys m (ifSome k' xs v)) k = if k = k' ∧ xs ≠ [] then some v else AMap.get m k := by
            intro α m k' xs v
            unfold ifSome
            cases xs with
            | nil => simp; rfl
            | cons x xs =>
              show AMap.get (AMap.set m k' v) k = _
              rw [get_set]; simp
          have hsplit : ∀ (m a b : List (Bytes × Val)), mergeKeys m (a ++ b) = mergeKeys (mergeKeys m a) b := by
            intro m a b; unfold mergeKeys; rw [List.foldl_append]
          rw [hsplit, hsplit, hone, hone, hone]
        refine ⟨?_, ?_, ?_, ?_, ?_, ?_⟩
        · show (match AMap.get _ kOptions with | some (Val.map m) => m | _ => []) = _
          rw [hkey, if_neg (by rintro ⟨h, _⟩; exact absurd h (by decide)), if_neg (by rintro ⟨h, _⟩; exact absurd h (by decide))]
          by_cases e : P.st.reg.options = []
          · rw [if_neg (by rintro ⟨_, h⟩; exact h e), e1 e]; rfl
          · rw [if_pos ⟨rfl, e⟩]
        · show (match AMap.get _ kArguments with | some (Val.list m) => m | _ => []) = _
          rw [hkey, if_neg (by rintro ⟨h, _⟩; exact absurd h (by decide))]
          by_cases e : P.st.reg.arguments = []
          · rw [if_neg (by rintro ⟨_, h⟩; exact h e), e2 e, if_neg (by rintro ⟨h, _⟩; exact absurd h (by decide))]; rfl
          · rw [if_pos ⟨rfl, e⟩]
        · show (match AMap.get _ kGroups with | some (Val.map m) => m | _ => []) = _
          rw [hkey]
          by_cases e : P.st.groups = []
          · rw [if_neg (by rintro ⟨_, h⟩; exact h e), e3 e, if_neg (by rintro ⟨h, _⟩; exact absurd h (by decide)),
              if_neg (by rintro ⟨h, _⟩; exact absurd h (by decide))]; rfl
          · rw [if_pos ⟨rfl, e⟩]
        all_goals
          show AMap.get _ _ = _
          rw [hkey, if_neg (by rintro ⟨h, _⟩; exact absurd h (by decide)), if_neg (by rintro ⟨h, _⟩; exact absurd h (by decide)),
            if_neg (by rintro ⟨h, _⟩; exact absurd h (by decide))]
          rfl

theorem getDescription_ok {ord : List Int32 → List Int32} {P : Parser} {os as_ gs} (h1 : describeOptions P.st P.st.reg.options [] = .ok os)
    (h2 : describeArguments P.st P.st.reg.arguments = .ok as_) (h3 : describeGroups P.st ord P.st.groups = .ok gs) :
    ∃ d, getDescription ord P = .ok d := by
  unfold getDescription
  rw [h1, h2, h3]
  exact ⟨_, rfl⟩

end Verif.Args
