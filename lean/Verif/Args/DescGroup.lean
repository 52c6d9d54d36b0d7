import Verif.Args.DescLoop
/-!
# Merging the groups of a description
-/

namespace Verif.Args
open Verif JsonDrv Schema

/-! ## Tables of groups -/

/-- A new group. -/
def Group.new : Group := { members := [], required := false, exclusive := false }

theorem find_setGroup (s : St) (n : Bytes) (f : Group → Group) (k : Bytes) :
    find (setGroup s n f).groups k = (find s.groups k).map fun g => if k = n then f g else g := by
  unfold setGroup
  simp only []
  induction s.groups with
  | nil => rfl
  | cons e r ih =>
    obtain ⟨a, g⟩ := e
    simp only [List.map_cons, find]
    by_cases h : a = k
    · subst h; simp
    · simp only [if_neg h]; exact ih

theorem find_get {α : Type} (m : List (Bytes × α)) (k : Bytes) : find m k = AMap.get m k := by
  induction m with
  | nil => rfl
  | cons e r ih => obtain ⟨a, b⟩ := e; simp only [find, AMap.get, ih]

theorem insert_found {m : List (Bytes × Group)} (hs : AMap.Sorted m) {n : Bytes} {g : Group} (h : find m n = some g) (g0 : Group) :
    insert keyLt m n g0 = m := by
  induction m with
  | nil => cases h
  | cons e r ih =>
    obtain ⟨a, b⟩ := e
    simp only [find] at h
    simp only [insert]
    by_cases e : a = n
    · rw [if_pos e]
    · rw [if_neg e] at h ⊢
      have : find r n ≠ none := by rw [h]; nofun
      split
      · rename_i hlt
        rw [find_get] at this
        exact absurd (AMap.get_none_of_above fun p hp => keyLt_trans hlt (hs.1 p hp)) this
      · rw [ih hs.2 h]

theorem insert_sorted {m : List (Bytes × Group)} (hs : AMap.Sorted m) (n : Bytes) (g0 : Group) : AMap.Sorted (insert keyLt m n g0) := by
  have : insert keyLt m n g0 = match find m n with | none => AMap.set m n g0 | some _ => m := by
    cases h : find m n with
    | some g => exact insert_found hs h g0
    | none =>
      show _ = AMap.set m n g0
      clear hs
      induction m with
      | nil => rfl
      | cons e r ih =>
        obtain ⟨a, b⟩ := e
        simp only [find] at h
        by_cases e : a = n
        · rw [if_pos e] at h; cases h
        · rw [if_neg e] at h
          simp only [insert, AMap.set, if_neg e, ih h]
  rw [this]
  split
  · exact AMap.sorted_set hs _ _
  · exact hs

theorem find_getGroup {s : St} (hs : AMap.Sorted s.groups) (n k : Bytes) : find (getGroup s n).groups k =
    if k = n then some ((find s.groups n).getD .new) else find s.groups k := by
  cases h : find s.groups n with
  | none =>
    show find (insert keyLt s.groups n _) k = _
    rw [find_insert _ _ h]
    by_cases e : k = n
    · subst e; simp [Group.new]
    · rw [if_neg e, if_neg (fun h => e h.symm)]
  | some g =>
    show find (insert keyLt s.groups n _) k = _
    rw [insert_found hs h]
    by_cases e : k = n
    · subst e; rw [if_pos rfl, h]; rfl
    · rw [if_neg e]

theorem setGroup_sorted {s : St} (hs : AMap.Sorted s.groups) (n : Bytes) (f : Group → Group) : AMap.Sorted (setGroup s n f).groups := by
  unfold setGroup
  simp only []
  generalize s.groups = m at hs
  induction m with
  | nil => trivial
  | cons e r ih =>
    refine ⟨fun p hp => ?_, ih hs.2⟩
    obtain ⟨q, hq, rfl⟩ := List.mem_map.1 hp
    exact hs.1 q hq

/-! ## Members -/

theorem describeOpt_groups (o : Opt) (gs : List Bytes) : describeOpt { o with cfg := { o.cfg with groups := gs } } = describeOpt o := rfl

theorem addMember_grown {s : St} (h : Inv s.reg) (n : Bytes) (id : Int32) : Grown s (addMember s n id) [] [] := by
  have he : ∀ i, (addMember s n id).entry i = (s.entry i).map fun o => if i = id then { o with cfg := { o.cfg with groups := addOnce o.cfg.groups n } } else o := by
    intro i
    unfold addMember
    rw [entry_setCfg]; rfl
  have ha : ∀ i o, Alike o (if i = id then { o with cfg := { o.cfg with groups := addOnce o.cfg.groups n } } else o) := by
    intro i o
    split
    · exact ⟨rfl, .inl rfl, rfl, rfl, fun _ => rfl⟩
    · exact .refl o
  refine ⟨?_, fun i o ho => ?_, nofun, .nil, .nil, fun i o' ho' => .inl ?_, Int.le_refl _, by exact Int.le_of_eq (by simp; rfl)⟩
  · unfold addMember; exact inv_setCfg (s := setGroup s n _) h _ _
  · rw [he, ho]; exact ⟨_, rfl, ha i o⟩
  · rw [he] at ho'
    cases h1 : s.entry i with
    | none => rw [h1] at ho'; cases ho'
    | some o => rw [h1] at ho'; cases ho'; exact ⟨o, rfl, ha i o⟩

/-- `At` finds an entry by its key path. -/
theorem entryNamed_known {s : St} (h : Inv s.reg) {id : Int32} {o : Opt} (ho : s.entry id = some o) (hp : o.path.getLast? ≠ some (.key [])) :
    entryNamed s (PathM.pathString o.path) = .ok id := by
  unfold entryNamed
  rw [PathM.parsePath_pathString _ hp]
  simp only []
  unfold entryAt
  rw [h.path id o ho]

/-- All members of a described group. -/
theorem each_members {w : World} (n : Bytes) {ms : List Val} {ids : List Int32} : ∀ {s : St}, Inv s.reg → AMap.Sorted s.groups →
    Both (fun v i => ∃ o, v = Val.str (PathM.pathString o.path) ∧ s.entry i = some o ∧ o.path.getLast? ≠ some (.key [])) ms ids →
    ∃ s', each (mergeMember w n) s ms = (s', .ok ()) ∧ Grown s s' [] [] ∧ s'.reg.options = s.reg.options ∧ s'.reg.arguments = s.reg.arguments ∧
      AMap.Sorted s'.groups ∧ ∀ k, find s'.groups k = (find s.groups k).map fun g => if k = n then { g with members := ids.foldl addOnce g.members } else g := by
  induction ms generalizing ids with
  | nil =>
    intro s hs hg hb
    cases hb
    refine ⟨s, rfl, .refl hs, rfl, rfl, hg, fun k => ?_⟩
    cases find s.groups k <;> simp
  | cons v ms ih =>
    intro s hs hg hb
    cases hb with
    | @cons _ i _ ids h1 hb =>
      obtain ⟨o, rfl, ho, hp⟩ := h1
      have hm : mergeMember w n s (.str (PathM.pathString o.path)) = (addMember s n i, .ok ()) := by
        unfold mergeMember
        simp only [Build.asString, withVal]
        rw [entryNamed_known hs ho hp]
      have hgr := addMember_grown hs n i
      have hsg : AMap.Sorted (addMember s n i).groups := setGroup_sorted hg n (fun g => { g with members := addOnce g.members i })
      obtain ⟨s', h1, h2, h3, h4, h5, h6⟩ := ih (s := addMember s n i) hgr.inv hsg (hb.imp fun v j ⟨x, h1, h2, h3⟩ => by
        obtain ⟨x', h4, h5⟩ := hgr.kept j x h2
        exact ⟨x', by rw [h5.path]; exact h1, h4, by rw [h5.path]; exact h3⟩)
      refine ⟨s', by rw [each_cons _ _ _ _ _ hm]; exact h1, hgr.trans h2, h3, h4, h5, fun k => ?_⟩
      rw [h6]
      have := find_setGroup s n (fun g => { g with members := addOnce g.members i }) k
      rw [show find (addMember s n i).groups k = _ from this]
      cases find s.groups k with
      | none => rfl
      | some g =>
        simp only [Option.map_some]
        by_cases e : k = n
        · simp only [if_pos e]; rfl
        · simp only [if_neg e]

/-! ## One group -/

theorem get_ifText (t d : Bytes) (k : Bytes) : AMap.get (mergeKeys [] (ifText kTitle t ++ ifText kDescription d)) k =
    if k = kTitle then (if t ≠ [] then some (.str t) else none) else if k = kDescription then (if d ≠ [] then some (.str d) else none) else none := by
  unfold ifText
  by_cases h1 : t ≠ [] <;> by_cases h2 : d ≠ []
  · simp only [if_pos h1, if_pos h2]
    show AMap.get (AMap.set (AMap.set [] kTitle _) kDescription _) k = _
    rw [get_set, get_set]
    by_cases e1 : k = kTitle
    · subst e1; rw [if_pos rfl, if_neg (by decide), if_pos rfl]
    · rw [if_neg e1, if_neg e1]; rfl
  · simp only [if_pos h1, if_neg h2]
    show AMap.get (AMap.set [] kTitle _) k = _
    rw [get_set]
    by_cases e1 : k = kTitle
    · rw [if_pos e1, if_pos e1]
    · rw [if_neg e1, if_neg e1]; simp [AMap.get]
  · simp only [if_neg h1, if_pos h2]
    show AMap.get (AMap.set [] kDescription _) k = _
    rw [get_set]
    by_cases e1 : k = kTitle
    · subst e1; rw [if_neg (by decide), if_pos rfl]; rfl
    · rw [if_neg e1]; rfl
  · simp only [if_neg h1, if_neg h2]
    show AMap.get [] k = _
    simp [AMap.get]

/-- What the description of a group says. -/
def groupSays (g : Group) (mem : List Val) (k : Bytes) : Option Val :=
  if k = kMembers then some (.list mem)
  else if k = kAdvanced then some (.bool g.advanced)
  else if k = kExclusive then some (.bool g.exclusive)
  else if k = kRequired then some (.bool g.required)
  else if k = kTitle then (if g.title ≠ [] then some (.str g.title) else none)
  else if k = kDescription then (if g.description ≠ [] then some (.str g.description) else none)
  else none

theorem describeGroup_says {s : St} {ord : List Int32 → List Int32} {g : Group} {d : Val} (h : describeGroup s ord g = .ok d) :
    ∃ mem D, keypaths s (ord g.members) = .ok mem ∧ d = .map D ∧ ∀ k, AMap.get D k = groupSays g mem k := by
  unfold describeGroup at h
  cases hk : keypaths s (ord g.members) with
  | throw e => rw [hk] at h; cases h
  | ub => rw [hk] at h; cases h
  | ok mem =>
    rw [hk] at h
    cases h
    refine ⟨mem, _, rfl, rfl, fun k => ?_⟩
    rw [get_set, get_set, get_set, get_set, get_ifText]
    rfl

theorem describeGroup_ok {s : St} {ord : List Int32 → List Int32} {g : Group} {mem : List Val} (h : keypaths s (ord g.members) = .ok mem) :
    ∃ D, describeGroup s ord g = .ok (.map D) ∧ ∀ k, AMap.get D k = groupSays g mem k := by
  obtain ⟨d, hd⟩ : ∃ d, describeGroup s ord g = .ok d := by
    unfold describeGroup; rw [h]; exact ⟨_, rfl⟩
  obtain ⟨mem', D, h1, rfl, h3⟩ := describeGroup_says hd
  rw [h] at h1; cases h1
  exact ⟨D, hd, h3⟩

theorem keypaths_both {s : St} : ∀ (ids : List Int32) {mem : List Val}, keypaths s ids = .ok mem →
    Both (fun v i => ∃ o, v = Val.str (PathM.pathString o.path) ∧ s.entry i = some o) mem ids
  | [], _, h => by cases h; exact .nil
  | i :: ids, mem, h => by
    unfold keypaths at h
    split at h
    · cases h
    · rename_i o ho
      cases hr : keypaths s ids with
      | throw e => rw [hr] at h; cases h
      | ub => rw [hr] at h; cases h
      | ok ms => rw [hr] at h; cases h; exact .cons ⟨o, rfl, ho⟩ (keypaths_both ids hr)

theorem keypaths_ok {s : St} {ids : List Int32} {mem : List Val}
    (h : Both (fun v i => ∃ o, v = Val.str (PathM.pathString o.path) ∧ s.entry i = some o) mem ids) : keypaths s ids = .ok mem := by
  induction h with
  | nil => rfl
  | cons h1 _ ih =>
    obtain ⟨o, rfl, ho⟩ := h1
    unfold keypaths
    rw [ho, ih]; rfl

/-- A described group on top of another. -/
def Group.over (g g0 : Group) (ids : List Int32) : Group :=
  { members := ids.foldl addOnce g0.members, required := g.required, exclusive := g.exclusive, advanced := g.advanced,
    title := if g.title ≠ [] then g.title else g0.title, description := if g.description ≠ [] then g.description else g0.description }

theorem textOr_says {w : World} {D : List (Bytes × Val)} {k t t0 : Bytes} (h : AMap.get D k = if t ≠ [] then some (.str t) else none) :
    textOr w (.map D) k t0 = .ok (if t ≠ [] then t else t0) := by
  show (match AMap.get D k with | none => Out.ok t0 | some v => Build.asString w.fo.fltText v) = _
  rw [h]
  by_cases e : t ≠ []
  · rw [if_pos e, if_pos e]; rfl
  · rw [if_neg e, if_neg e]

theorem boolOr_says {D : List (Bytes × Val)} {k : Bytes} {b b0 : Bool} (h : AMap.get D k = some (.bool b)) : boolOr (.map D) k b0 = .ok b := by
  show (match AMap.get D k with | none => Out.ok b0 | some v => asBool v) = _
  rw [h]; rfl

/-- Merging the description of a group. -/
theorem mergeGroup_described {w : World} {s : St} (hs : Inv s.reg) (hg : AMap.Sorted s.groups) (n : Bytes) {g : Group} {mem : List Val} {ids : List Int32}
    {D : List (Bytes × Val)} (hD : ∀ k, AMap.get D k = groupSays g mem k)
    (hm : Both (fun v i => ∃ o, v = Val.str (PathM.pathString o.path) ∧ s.entry i = some o ∧ o.path.getLast? ≠ some (.key [])) mem ids) :
    ∃ s', mergeGroup w s (n, .map D) = (s', .ok ()) ∧ Grown s s' [] [] ∧ s'.reg.options = s.reg.options ∧ s'.reg.arguments = s.reg.arguments ∧
      AMap.Sorted s'.groups ∧ ∀ k, find s'.groups k = if k = n then some (g.over ((find s.groups n).getD .new) ids) else find s.groups k := by
  have hf := find_getGroup hg n
  have hfn : find (getGroup s n).groups n = some ((find s.groups n).getD .new) := by rw [hf, if_pos rfl]
  have hgs : AMap.Sorted (getGroup s n).groups := insert_sorted hg _ _
  generalize (find s.groups n).getD .new = g0 at hf hfn ⊢
  have r1 := textOr_says (w := w) (D := D) (k := kTitle) (t := g.title) (t0 := g0.title) (by rw [hD]; rfl)
  have r2 := textOr_says (w := w) (D := D) (k := kDescription) (t := g.description) (t0 := g0.description) (by rw [hD]; rfl)
  have r3 := boolOr_says (D := D) (k := kRequired) (b := g.required) (b0 := g0.required) (by rw [hD]; rfl)
  have r4 := boolOr_says (D := D) (k := kExclusive) (b := g.exclusive) (b0 := g0.exclusive) (by rw [hD]; rfl)
  have r5 := boolOr_says (D := D) (k := kAdvanced) (b := g.advanced) (b0 := false) (by rw [hD]; rfl)
  have r6 : membersIn (.map D) = mem := by
    show (match AMap.get D kMembers with | some (.list xs) => xs | _ => []) = _
    rw [hD]; rfl
  have key : ∃ s1, mergeGroup w s (n, .map D) = each (mergeMember w n) s1 mem ∧ s1.reg = s.reg ∧ AMap.Sorted s1.groups ∧
      ∀ k, find s1.groups k = if k = n then some { g.over g0 [] with members := g0.members } else find s.groups k := by
    unfold mergeGroup initGroup
    rw [hfn]
    simp only [withVal]
    rw [r1]; simp only []
    rw [r2]; simp only []
    rw [r3]; simp only []
    rw [r4]; simp only []
    rw [r5]; simp only []
    rw [r6]
    refine ⟨_, rfl, rfl, ?_, fun k => ?_⟩
    · refine setGroup_sorted ?_ _ _
      dsimp only
      exact setGroup_sorted (setGroup_sorted (setGroup_sorted (setGroup_sorted hgs _ _) _ _) _ _) _ _
    · rw [find_setGroup]
      dsimp only
      rw [find_setGroup, find_setGroup, find_setGroup, find_setGroup, hf]
      by_cases e : k = n
      · simp only [if_pos e, Option.map_some]; rfl
      · simp only [if_neg e]; cases find s.groups k <;> rfl
  obtain ⟨s1, k1, k2, k3, k4⟩ := key
  have ke : ∀ i, s1.entry i = s.entry i := fun i => by unfold St.entry; rw [k2]
  have kg : Grown s s1 [] [] := by
    refine ⟨by rw [k2]; exact hs, fun i o h => ⟨o, by rw [ke]; exact h, .refl o⟩, nofun, .nil, .nil, fun i o h => .inl ⟨o, by rw [← ke]; exact h, .refl o⟩, ?_⟩
    rw [k2]; exact ⟨Int.le_refl _, by simp⟩
  obtain ⟨s', m1, m2, m3, m4, m5, m6⟩ := each_members (w := w) n (ms := mem) (ids := ids) (s := s1) (by rw [k2]; exact hs) k3
    (hm.imp fun v i ⟨o, a, b, c⟩ => ⟨o, a, by rw [ke]; exact b, c⟩)
  refine ⟨s', k1.trans m1, kg.trans m2, by rw [m3, k2], by rw [m4, k2], m5, fun k => ?_⟩
  rw [m6, k4]
  by_cases e : k = n
  · simp only [if_pos e, Option.map_some]; rfl
  · simp only [if_neg e]; cases find s.groups k <;> rfl

end Verif.Args
