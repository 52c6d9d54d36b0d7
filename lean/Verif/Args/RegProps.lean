import Verif.Args.Register
/-!
# C48 Registered options never collide
-/

namespace Verif.Args
open Verif

/-! ## Specification -/

/-- The registered options and arguments, in the order of the description. -/
def entries (s : Reg) : List (Option Opt) := (s.options ++ s.arguments).map (find s.optionMap)

/-- Two entries cannot be mistaken for one another: different result paths, different long options, and
different short option characters.  No long option is the empty text; only positive numbers are short
options. -/
def Apart (a b : Opt) : Prop :=
  a.path ≠ b.path ∧ (a.long ≠ [] → a.long ≠ b.long) ∧
  (a.short > 0 → b.short > 0 → toChar a.short ≠ toChar b.short)

/-- The call asks for a short option that fits an unsigned character, if any. -/
def Call.charShort : Call → Prop
  | .addOption _ short _ _ _ => short ≤ 255
  | _ => True

/-! ## Tables -/

theorem find_insert {κ α : Type} [DecidableEq κ] (lt : κ → κ → Bool) {m : List (κ × α)} {k : κ} (v : α)
    (h : find m k = none) (k' : κ) : find (insert lt m k v) k' = if k = k' then some v else find m k' := by
  induction m with
  | nil => simp [insert, find]
  | cons x r ih =>
    obtain ⟨a, b⟩ := x
    simp only [find] at h
    by_cases e : a = k
    · simp [e] at h
    · simp only [e, if_false] at h
      simp only [insert, e, if_false]
      split
      · simp only [find]
      · simp only [find, ih h]
        by_cases e1 : a = k'
        · have : ¬ k = k' := fun e2 => e (e1.trans e2.symm)
          simp [e1, this]
        · simp [e1]

theorem find_update (m : List (Int32 × Opt)) (id : Int32) (f : Config → Config) (k : Int32) :
    find (update m id f) k = (find m k).map fun o => if k = id then { o with cfg := f o.cfg } else o := by
  induction m with
  | nil => rfl
  | cons x r ih =>
    obtain ⟨a, b⟩ := x
    simp only [update, List.map_cons, find] at ih ⊢
    by_cases e : a = k
    · simp [e]
    · simp only [e, if_false, ih]

/-- What holds after every sequence of calls. -/
structure Inv (s : Reg) : Prop where
  nodup : (s.options ++ s.arguments).Nodup
  known : ∀ id ∈ s.options ++ s.arguments, ∃ o, find s.optionMap id = some o
  listed : ∀ id o, find s.optionMap id = some o → id ∈ s.options ++ s.arguments ∧ o.id = id
  path : ∀ id o, find s.optionMap id = some o → find s.paths (PathM.pathString o.path) = some id
  long : ∀ id o, find s.optionMap id = some o → o.long ≠ [] → find s.longs o.long = some id
  short : ∀ id o, find s.optionMap id = some o → o.short > 0 → find s.shorts (toChar o.short) = some id
  small : ∀ id o, find s.optionMap id = some o → id.toInt ≤ 256 → o.short > 0 ∧ o.short = id
  large : ∀ id o, find s.optionMap id = some o → id.toInt ≤ s.count.toInt
  count : 256 ≤ s.count.toInt
  pathOf : ∀ t id, find s.paths t = some id → ∃ o, find s.optionMap id = some o ∧ PathM.pathString o.path = t
  longOf : ∀ t id, find s.longs t = some id → ∃ o, find s.optionMap id = some o ∧ o.long = t
  shortOf : ∀ c id, find s.shorts c = some id → ∃ o, find s.optionMap id = some o ∧ o.short > 0 ∧ toChar o.short = c

theorem inv_init : Inv .init where
  nodup := by simp [Reg.init]
  known := by simp [Reg.init]
  listed := by simp [Reg.init, find]
  path := by simp [Reg.init, find]
  long := by simp [Reg.init, find]
  short := by simp [Reg.init, find]
  small := by simp [Reg.init, find]
  large := by simp [Reg.init, find]
  count := by decide
  pathOf := by simp [Reg.init, find]
  longOf := by simp [Reg.init, find]
  shortOf := by simp [Reg.init, find]

/-- Nothing the description shows has changed. -/
def SameEntries (s t : Reg) : Prop :=
  t.options = s.options ∧ t.arguments = s.arguments ∧ t.optionMap = s.optionMap ∧ t.longs = s.longs ∧
  t.shorts = s.shorts ∧ t.paths = s.paths

theorem SameEntries.inv {s t : Reg} (h : SameEntries s t) (hs : Inv s) (hc : s.count.toInt ≤ t.count.toInt) : Inv t := by
  obtain ⟨h1, h2, h3, h4, h5, h6⟩ := h
  constructor
  · rw [h1, h2]; exact hs.nodup
  · rw [h1, h2, h3]; exact hs.known
  · rw [h1, h2, h3]; exact hs.listed
  · rw [h3, h6]; exact hs.path
  · rw [h3, h4]; exact hs.long
  · rw [h3, h5]; exact hs.short
  · rw [h3]; exact hs.small
  · rw [h3]; intro id o h; exact Int.le_trans (hs.large id o h) hc
  · exact Int.le_trans hs.count hc
  · rw [h3, h6]; exact hs.pathOf
  · rw [h3, h4]; exact hs.longOf
  · rw [h3, h5]; exact hs.shortOf

/-- What a successful `CheckExisting` guarantees. -/
structure Fresh (s t : Reg) (p : VPath) (l : Bytes) (i sh : Int32) : Prop where
  same : SameEntries s t
  count : s.count.toInt ≤ t.count.toInt
  path : find s.paths (PathM.pathString p) = none
  long : l ≠ [] → find s.longs l = none
  short : sh > 0 → find s.shorts (toChar sh) = none
  id : (sh > 0 ∧ i = sh) ∨ (¬ sh > 0 ∧ i.toInt = s.count.toInt + 1 ∧ t.count.toInt = i.toInt)

theorem toInt_succ {i : Int32} (h : i ≠ Int32.maxValue) : (i + 1).toInt = i.toInt + 1 := by
  have h1 : i.toInt ≠ Int32.maxValue.toInt := fun e => h (Int32.toInt_inj.1 e)
  have h2 := i.toInt_lt
  have h3 := i.le_toInt
  have h4 : Int32.maxValue.toInt = 2147483647 := by decide
  rw [Int32.toInt_add]
  have : (1 : Int32).toInt = 1 := by decide
  rw [this, Int.bmod_eq_of_le] <;> omega

theorem nextId_cases (s : Reg) (short : Int32) :
    ∃ t r, nextId s short = (t, r) ∧ SameEntries s t ∧ s.count.toInt ≤ t.count.toInt ∧ t.resolve = s.resolve ∧ (∀ e, r ≠ .throw e) ∧
      ∀ id, r = .ok id → (short > 0 ∧ id = short) ∨ (¬ short > 0 ∧ id.toInt = s.count.toInt + 1 ∧ t.count.toInt = id.toInt) := by
  unfold nextId
  by_cases h : short > 0
  · rw [if_pos h]
    exact ⟨s, _, rfl, ⟨rfl, rfl, rfl, rfl, rfl, rfl⟩, Int.le_refl _, rfl, nofun, fun id e => .inl ⟨h, by cases e; rfl⟩⟩
  · rw [if_neg h]
    by_cases h2 : s.count = Int32.maxValue
    · rw [if_pos h2]
      exact ⟨s, _, rfl, ⟨rfl, rfl, rfl, rfl, rfl, rfl⟩, Int.le_refl _, rfl, nofun, nofun⟩
    · rw [if_neg h2]
      have := toInt_succ h2
      refine ⟨_, _, rfl, ⟨rfl, rfl, rfl, rfl, rfl, rfl⟩, ?_, rfl, nofun, fun id e => .inr ⟨h, ?_⟩⟩
      · simp only [this]; omega
      · cases e; exact ⟨this, rfl⟩

/-- The short option is left out because it is taken. -/
def Dropped (s : Reg) (short : Int32) : Prop := s.resolve = true ∧ short > 0 ∧ (find s.shorts (toChar short)).isSome

/-- Something the new entry asks for is taken. -/
def Taken (s : Reg) (path : VPath) (short : Int32) (long : Bytes) : Prop :=
  (find s.paths (PathM.pathString path)).isSome ∨ (s.resolve = false ∧ short > 0 ∧ (find s.shorts (toChar short)).isSome) ∨
  (long ≠ [] ∧ (find s.longs long).isSome)

theorem checkExisting_cases (s : Reg) (path : VPath) (short : Int32) (long : Bytes) :
    ∃ t r, checkExisting s path short long = (t, r) ∧ SameEntries s t ∧ s.count.toInt ≤ t.count.toInt ∧ t.resolve = s.resolve ∧
      (∀ id short', r = .ok (id, short') → Fresh s t path long id short' ∧ (short' = short ∨ (short' = 0 ∧ Dropped s short))) ∧
      ∀ e, r = .throw e → Taken s path short long := by
  unfold checkExisting
  by_cases h1 : (find s.paths (PathM.pathString path)).isSome
  · rw [if_pos h1]
    exact ⟨s, _, rfl, ⟨rfl, rfl, rfl, rfl, rfl, rfl⟩, Int.le_refl _, rfl, nofun, fun _ _ => .inl h1⟩
  · rw [if_neg h1]
    have hp : find s.paths (PathM.pathString path) = none := by simpa using h1
    cases h2 : checkShort s short with
    | throw e =>
      refine ⟨s, _, rfl, ⟨rfl, rfl, rfl, rfl, rfl, rfl⟩, Int.le_refl _, rfl, nofun, fun _ _ => .inr (.inl ?_)⟩
      unfold checkShort at h2
      by_cases h4 : short > 0 ∧ (find s.shorts (toChar short)).isSome
      · rw [if_pos h4] at h2
        by_cases h5 : s.resolve
        · rw [if_pos h5] at h2; cases h2
        · exact ⟨by simpa using h5, h4⟩
      · rw [if_neg h4] at h2; cases h2
    | ub => exact ⟨s, _, rfl, ⟨rfl, rfl, rfl, rfl, rfl, rfl⟩, Int.le_refl _, rfl, nofun, nofun⟩
    | ok sh =>
      have h3 : (sh > 0 → find s.shorts (toChar sh) = none) ∧ (sh = short ∨ (sh = 0 ∧ Dropped s short)) := by
        unfold checkShort at h2
        by_cases h4 : short > 0 ∧ (find s.shorts (toChar short)).isSome
        · rw [if_pos h4] at h2
          by_cases h5 : s.resolve
          · rw [if_pos h5] at h2; cases h2
            exact ⟨fun h => absurd h (by decide), .inr ⟨rfl, h5, h4⟩⟩
          · rw [if_neg h5] at h2; cases h2
        · rw [if_neg h4] at h2; cases h2
          refine ⟨fun h => ?_, .inl rfl⟩
          have : ¬ (find s.shorts (toChar short)).isSome := fun h6 => h4 ⟨h, h6⟩
          simpa using this
      dsimp only
      by_cases h4 : long ≠ [] ∧ (find s.longs long).isSome
      · rw [if_pos h4]
        exact ⟨s, _, rfl, ⟨rfl, rfl, rfl, rfl, rfl, rfl⟩, Int.le_refl _, rfl, nofun, fun _ _ => .inr (.inr h4)⟩
      · rw [if_neg h4]
        obtain ⟨t, r, e, hs, hc, hr, hth, hid⟩ := nextId_cases s sh
        rw [e]
        cases r with
        | throw e => exact absurd rfl (hth _)
        | ub => exact ⟨t, _, rfl, hs, hc, hr, nofun, nofun⟩
        | ok id =>
          refine ⟨t, _, rfl, hs, hc, hr, fun id' sh' e' => ?_, nofun⟩
          cases e'
          refine ⟨⟨hs, hc, hp, fun hl => ?_, h3.1, hid _ rfl⟩, h3.2⟩
          have : ¬ (find s.longs long).isSome := fun h6 => h4 ⟨hl, h6⟩
          simpa using this

/-- The number of a new entry is not in use. -/
theorem Fresh.unused {s t : Reg} {path long id short} (h : Fresh s t path long id short) (hs : Inv s) (hc : short.toInt ≤ 256) :
    find s.optionMap id = none := by
  cases e : find s.optionMap id with
  | none => rfl
  | some o =>
    rcases h.id with ⟨h1, rfl⟩ | ⟨_, h2, _⟩
    · obtain ⟨h3, h4⟩ := hs.small _ o e hc
      have := hs.short _ o e h3
      rw [h4, h.short h1] at this
      cases this
    · have := hs.large id o e
      omega

/-- Entering something with a fresh number keeps everything in order. -/
theorem Fresh.enter {s t u : Reg} {o : Opt} (h : Fresh s t o.path o.long o.id o.short) (hs : Inv s) (hc : o.short.toInt ≤ 256)
    (hm : u.optionMap = insert ltInt s.optionMap o.id o)
    (hids : (u.options = s.options ++ [o.id] ∧ u.arguments = s.arguments) ∨ (u.options = s.options ∧ u.arguments = s.arguments ++ [o.id]))
    (hl : u.longs = if o.long ≠ [] then insert keyLt s.longs o.long o.id else s.longs)
    (hsh : u.shorts = if o.short > 0 then insert ltChar s.shorts (toChar o.short) o.id else s.shorts)
    (hp : u.paths = insert keyLt s.paths (PathM.pathString o.path) o.id)
    (hcount : u.count = t.count) : Inv u := by
  have hun := h.unused hs hc
  have hfind : ∀ k, find u.optionMap k = if o.id = k then some o else find s.optionMap k := by
    intro k; rw [hm]; exact find_insert _ _ hun k
  have hnew : o.id ∉ s.options ++ s.arguments := fun hmem => by
    obtain ⟨o', ho'⟩ := hs.known _ hmem
    rw [hun] at ho'; cases ho'
  have hmem : ∀ id, id ∈ u.options ++ u.arguments ↔ id ∈ s.options ++ s.arguments ∨ id = o.id := by
    intro id
    rcases hids with ⟨h1, h2⟩ | ⟨h1, h2⟩ <;> rw [h1, h2] <;> simp only [List.mem_append, List.mem_singleton]
    · constructor
      · rintro ((h | h) | h) <;> simp [h]
      · rintro ((h | h) | h) <;> simp [h]
    · constructor
      · rintro (h | (h | h)) <;> simp [h]
      · rintro ((h | h) | h) <;> simp [h]
  have hcases : ∀ id o', find u.optionMap id = some o' → (id = o.id ∧ o' = o) ∨ (id ≠ o.id ∧ find s.optionMap id = some o') := by
    intro id o' hf
    rw [hfind] at hf
    by_cases e : o.id = id
    · rw [if_pos e] at hf; cases hf; exact .inl ⟨e.symm, rfl⟩
    · rw [if_neg e] at hf; exact .inr ⟨fun e' => e e'.symm, hf⟩
  have hkeep : ∀ id o', find s.optionMap id = some o' → find u.optionMap id = some o' := by
    intro id o' h1
    rw [hfind, if_neg (fun e => ?_), h1]
    subst e; rw [hun] at h1; cases h1
  have hcnt : s.count.toInt ≤ u.count.toInt := by rw [hcount]; exact h.count
  constructor
  · have hn := hs.nodup
    rcases hids with ⟨h1, h2⟩ | ⟨h1, h2⟩ <;> rw [h1, h2]
    · rw [List.append_assoc, List.nodup_append]
      rw [List.nodup_append] at hn
      simp only [List.mem_append, not_or] at hnew
      refine ⟨hn.1, ?_, ?_⟩
      · rw [List.singleton_append, List.nodup_cons]; exact ⟨hnew.2, hn.2.1⟩
      · intro a ha b hb
        simp only [List.singleton_append, List.mem_cons] at hb
        rcases hb with rfl | hb
        · intro e; subst e; exact hnew.1 ha
        · exact hn.2.2 a ha b hb
    · rw [← List.append_assoc, List.nodup_append]
      refine ⟨hn, by simp, ?_⟩
      intro a ha b hb
      simp only [List.mem_singleton] at hb
      subst hb
      intro e; subst e; exact hnew ha
  · intro id hid
    rcases (hmem id).1 hid with h1 | rfl
    · obtain ⟨o', ho'⟩ := hs.known id h1
      refine ⟨o', ?_⟩
      rw [hfind, if_neg (fun e => ?_), ho']
      subst e; exact hnew h1
    · exact ⟨o, by rw [hfind, if_pos rfl]⟩
  · intro id o' hf
    rcases hcases id o' hf with ⟨rfl, rfl⟩ | ⟨_, h2⟩
    · exact ⟨(hmem _).2 (.inr rfl), rfl⟩
    · exact ⟨(hmem _).2 (.inl (hs.listed id o' h2).1), (hs.listed id o' h2).2⟩
  · intro id o' hf
    rw [hp, find_insert _ _ h.path]
    rcases hcases id o' hf with ⟨rfl, rfl⟩ | ⟨_, h2⟩
    · simp
    · have := hs.path id o' h2
      rw [if_neg (fun e => ?_), this]
      rw [← e, h.path] at this; cases this
  · intro id o' hf hne
    rcases hcases id o' hf with ⟨rfl, rfl⟩ | ⟨_, h2⟩
    · rw [hl, if_pos hne, find_insert _ _ (h.long hne)]; simp
    · have := hs.long id o' h2 hne
      rw [hl]
      by_cases h3 : o.long ≠ []
      · rw [if_pos h3, find_insert _ _ (h.long h3), if_neg (fun e => ?_), this]
        rw [← e, h.long h3] at this; cases this
      · rw [if_neg h3, this]
  · intro id o' hf hne
    rcases hcases id o' hf with ⟨rfl, rfl⟩ | ⟨_, h2⟩
    · rw [hsh, if_pos hne, find_insert _ _ (h.short hne)]; simp
    · have := hs.short id o' h2 hne
      rw [hsh]
      by_cases h3 : o.short > 0
      · rw [if_pos h3, find_insert _ _ (h.short h3), if_neg (fun e => ?_), this]
        rw [← e, h.short h3] at this; cases this
      · rw [if_neg h3, this]
  · intro id o' hf hle
    rcases hcases id o' hf with ⟨rfl, rfl⟩ | ⟨_, h2⟩
    · rcases h.id with ⟨h3, h4⟩ | ⟨_, h4, _⟩
      · exact ⟨h3, h4.symm⟩
      · have := hs.count; omega
    · exact hs.small id o' h2 hle
  · intro id o' hf
    rcases hcases id o' hf with ⟨rfl, rfl⟩ | ⟨_, h2⟩
    · rcases h.id with ⟨_, h4⟩ | ⟨_, _, h5⟩
      · rw [h4]; have := hs.count; omega
      · rw [hcount, h5]; exact Int.le_refl _
    · exact Int.le_trans (hs.large id o' h2) hcnt
  · exact Int.le_trans hs.count hcnt
  · intro t id hf
    rw [hp, find_insert _ _ h.path] at hf
    split at hf
    · rename_i e; cases hf
      exact ⟨o, by rw [hfind, if_pos rfl], e⟩
    · obtain ⟨o', h1, h2⟩ := hs.pathOf t id hf
      exact ⟨o', hkeep _ _ h1, h2⟩
  · intro t id hf
    rw [hl] at hf
    split at hf
    · rename_i hne
      rw [find_insert _ _ (h.long hne)] at hf
      split at hf
      · rename_i e; cases hf
        exact ⟨o, by rw [hfind, if_pos rfl], e⟩
      · obtain ⟨o', h1, h2⟩ := hs.longOf t id hf
        exact ⟨o', hkeep _ _ h1, h2⟩
    · obtain ⟨o', h1, h2⟩ := hs.longOf t id hf
      exact ⟨o', hkeep _ _ h1, h2⟩
  · intro c id hf
    rw [hsh] at hf
    split at hf
    · rename_i hne
      rw [find_insert _ _ (h.short hne)] at hf
      split at hf
      · rename_i e; cases hf
        exact ⟨o, by rw [hfind, if_pos rfl], hne, e⟩
      · obtain ⟨o', h1, h2⟩ := hs.shortOf c id hf
        exact ⟨o', hkeep _ _ h1, h2⟩
    · obtain ⟨o', h1, h2⟩ := hs.shortOf c id hf
      exact ⟨o', hkeep _ _ h1, h2⟩

theorem newOpt_fields {id path short long help action o} (h : newOpt id path short long help action = .ok o) :
    o.id = id ∧ o.path = path ∧ o.short = short ∧ o.long = long ∧ o.cfg.action = action ∧ o.result = .null := by
  unfold newOpt at h
  dsimp only at h
  split at h <;> cases h <;> exact ⟨rfl, rfl, rfl, rfl, rfl, rfl⟩

theorem newOpt_no_throw (id path short long help action) (e : Err) : newOpt id path short long help action ≠ .throw e := by
  unfold newOpt
  dsimp only
  split <;> nofun

/-- What `AddOption` does, in all cases. -/
theorem addOption_cases (s : Reg) (keypath : Bytes) (short : Int32) (long help : Bytes) (action : Action) :
    ∃ t r, addOption s keypath short long help action = (t, r) ∧ t.resolve = s.resolve ∧
      ((∀ e, r = .throw e → SameEntries s t ∧ s.count.toInt ≤ t.count.toInt ∧
        ∀ path, PathM.parsePath keypath = .ok path → Taken s path short long ∨ (long = [] ∧ (short = 0 ∨ Dropped s short))) ∧
       ∀ id, r = .ok id → ∃ t0 path o short', PathM.parsePath keypath = .ok path ∧ Fresh s t0 path long id short' ∧
        (short' = short ∨ (short' = 0 ∧ Dropped s short)) ∧ newOpt id path short' long help action = .ok o ∧ t = enterOption t0 o) := by
  unfold addOption
  cases hp : PathM.parsePath keypath with
  | throw e => exact ⟨s, _, rfl, rfl, fun _ _ => ⟨⟨rfl, rfl, rfl, rfl, rfl, rfl⟩, Int.le_refl _, nofun⟩, nofun⟩
  | ub => exact ⟨s, _, rfl, rfl, nofun, nofun⟩
  | ok path =>
    obtain ⟨t, r, e, hs, hc, hr, hok, hth⟩ := checkExisting_cases s path short long
    dsimp only
    rw [e]
    match r with
    | .throw e => exact ⟨t, _, rfl, hr, fun _ _ => ⟨hs, hc, fun p hp => by cases hp; exact .inl (hth e rfl)⟩, nofun⟩
    | .ub => exact ⟨t, _, rfl, hr, nofun, nofun⟩
    | .ok (id, sh) =>
      obtain ⟨h1, h2⟩ := hok id sh rfl
      dsimp only
      by_cases h3 : long = [] ∧ sh = 0
      · rw [if_pos h3]
        refine ⟨t, _, rfl, hr, fun _ _ => ⟨hs, hc, fun p hp => .inr ⟨h3.1, ?_⟩⟩, nofun⟩
        rcases h2 with h2 | h2
        · exact .inl (h2.symm.trans h3.2)
        · exact .inr h2.2
      · rw [if_neg h3]
        cases h4 : newOpt id path sh long help action with
        | throw e => exact absurd h4 (newOpt_no_throw _ _ _ _ _ _ e)
        | ub => exact ⟨_, _, rfl, hr, nofun, nofun⟩
        | ok o =>
          refine ⟨_, _, rfl, hr, nofun, fun id' e' => ?_⟩
          cases e'
          exact ⟨t, path, o, sh, rfl, h1, h2, h4, rfl⟩

/-- What `AddArgument` does, in all cases. -/
theorem addArgument_cases (s : Reg) (keypath help : Bytes) (action : Action) :
    ∃ t r, addArgument s keypath help action = (t, r) ∧ t.resolve = s.resolve ∧
      ((∀ e, r = .throw e → SameEntries s t ∧ s.count.toInt ≤ t.count.toInt ∧
        ∀ path, PathM.parsePath keypath = .ok path → (find s.paths (PathM.pathString path)).isSome) ∧
       ∀ id, r = .ok id → ∃ t0 path o, PathM.parsePath keypath = .ok path ∧ Fresh s t0 path [] id 0 ∧
        newOpt id path 0 [] help action = .ok o ∧ t = enterArgument t0 o) := by
  unfold addArgument
  cases hp : PathM.parsePath keypath with
  | throw e => exact ⟨s, _, rfl, rfl, fun _ _ => ⟨⟨rfl, rfl, rfl, rfl, rfl, rfl⟩, Int.le_refl _, nofun⟩, nofun⟩
  | ub => exact ⟨s, _, rfl, rfl, nofun, nofun⟩
  | ok path =>
    obtain ⟨t, r, e, hs, hc, hr, hok, hth⟩ := checkExisting_cases s path 0 []
    dsimp only
    rw [e]
    match r with
    | .throw e =>
      refine ⟨t, _, rfl, hr, fun _ _ => ⟨hs, hc, fun p hp => ?_⟩, nofun⟩
      cases hp
      rcases hth e rfl with h | h | h
      · exact h
      · exact absurd h.2.1 (by decide)
      · exact absurd rfl h.1
    | .ub => exact ⟨t, _, rfl, hr, nofun, nofun⟩
    | .ok (id, sh) =>
      obtain ⟨h1, h2⟩ := hok id sh rfl
      have h3 : sh = 0 := by rcases h2 with h | h; exact h; exact h.1
      subst h3
      dsimp only
      cases h4 : newOpt id path 0 [] help action with
      | throw e => exact absurd h4 (newOpt_no_throw _ _ _ _ _ _ e)
      | ub => exact ⟨_, _, rfl, hr, nofun, nofun⟩
      | ok o =>
        refine ⟨_, _, rfl, hr, nofun, fun id' e' => ?_⟩
        cases e'
        exact ⟨t, path, o, rfl, h1, h4, rfl⟩

theorem addOption_inv {s : Reg} (hs : Inv s) {keypath short long help action t r} (hc : short ≤ 255)
    (h : addOption s keypath short long help action = (t, r)) (hr : r ≠ .ub) : Inv t := by
  obtain ⟨t', r', e, _, h1, h2⟩ := addOption_cases s keypath short long help action
  rw [h] at e; cases e
  cases r with
  | ub => exact absurd rfl hr
  | throw e => exact (h1 e rfl).1.inv hs (h1 e rfl).2.1
  | ok id =>
    obtain ⟨t0, path, o, sh, _, h4, h5, h6, rfl⟩ := h2 id rfl
    obtain ⟨e1, e2, e3, e4, _⟩ := newOpt_fields h6
    have hsh : o.short.toInt ≤ 256 := by
      have := Int32.le_iff_toInt_le.1 hc
      have h255 : (255 : Int32).toInt = 255 := by decide
      rw [e3]
      rcases h5 with rfl | ⟨rfl, _⟩
      · omega
      · decide
    rw [← e1, ← e2, ← e3, ← e4] at h4
    have hsame := h4.same
    obtain ⟨g1, g2, g3, g4, g5, g6⟩ := hsame
    exact h4.enter hs hsh (by simp [enterOption, g3]) (.inl ⟨by simp [enterOption, g1], by simp [enterOption, g2]⟩)
      (by simp [enterOption, g4]) (by simp [enterOption, g5]) (by simp [enterOption, g6]) rfl

theorem Inv.update {s : Reg} (hs : Inv s) (id : Int32) (f : Config → Config) : Inv { s with optionMap := Args.update s.optionMap id f } := by
  have key : ∀ k o, find (Args.update s.optionMap id f) k = some o →
      ∃ o0, find s.optionMap k = some o0 ∧ o.path = o0.path ∧ o.long = o0.long ∧ o.short = o0.short ∧ o.id = o0.id := by
    intro k o h
    rw [find_update, Option.map_eq_some_iff] at h
    obtain ⟨o0, h1, h2⟩ := h
    refine ⟨o0, h1, ?_⟩
    split at h2 <;> subst h2 <;> exact ⟨rfl, rfl, rfl, rfl⟩
  constructor
  · exact hs.nodup
  · intro k hk
    obtain ⟨o, ho⟩ := hs.known k hk
    exact ⟨_, by dsimp only; rw [find_update, ho]; rfl⟩
  · intro k o h
    obtain ⟨o0, h1, _, _, _, h2⟩ := key k o h
    exact ⟨(hs.listed k o0 h1).1, h2.trans (hs.listed k o0 h1).2⟩
  · intro k o h
    obtain ⟨o0, h1, h2, _⟩ := key k o h
    rw [h2]; exact hs.path k o0 h1
  · intro k o h hne
    obtain ⟨o0, h1, _, h2, _⟩ := key k o h
    rw [h2] at hne ⊢; exact hs.long k o0 h1 hne
  · intro k o h hne
    obtain ⟨o0, h1, _, _, h2, _⟩ := key k o h
    rw [h2] at hne ⊢; exact hs.short k o0 h1 hne
  · intro k o h hle
    obtain ⟨o0, h1, _, _, h2, _⟩ := key k o h
    rw [h2]; exact hs.small k o0 h1 hle
  · intro k o h
    obtain ⟨o0, h1, _⟩ := key k o h
    exact hs.large k o0 h1
  · exact hs.count
  · intro t k h
    obtain ⟨o, h1, h2⟩ := hs.pathOf t k h
    exact ⟨_, by dsimp only; rw [find_update, h1]; rfl, by dsimp only; split <;> exact h2⟩
  · intro t k h
    obtain ⟨o, h1, h2⟩ := hs.longOf t k h
    exact ⟨_, by dsimp only; rw [find_update, h1]; rfl, by dsimp only; split <;> exact h2⟩
  · intro t k h
    obtain ⟨o, h1, h2⟩ := hs.shortOf t k h
    exact ⟨_, by dsimp only; rw [find_update, h1]; rfl, by dsimp only; split <;> exact h2⟩

theorem addArgument_inv {s : Reg} (hs : Inv s) {keypath help action t r}
    (h : addArgument s keypath help action = (t, r)) (hr : r ≠ .ub) : Inv t := by
  obtain ⟨t', r', e, _, h1, h2⟩ := addArgument_cases s keypath help action
  rw [h] at e; cases e
  cases r with
  | ub => exact absurd rfl hr
  | throw e => exact (h1 e rfl).1.inv hs (h1 e rfl).2.1
  | ok id =>
    obtain ⟨t0, path, o, _, h4, h6, rfl⟩ := h2 id rfl
    obtain ⟨e1, e2, e3, e4, _⟩ := newOpt_fields h6
    rw [← e1, ← e2] at h4
    have hsame := h4.same
    obtain ⟨g1, g2, g3, g4, g5, g6⟩ := hsame
    let o' : Opt := { o with cfg := argDefaults o.cfg }
    have h4' : Fresh s t0 o'.path o'.long o'.id o'.short := by
      show Fresh s t0 o.path o.long o.id o.short
      rw [e3, e4]; exact h4
    refine h4'.enter hs (by show o.short.toInt ≤ 256; rw [e3]; decide) (by simp [enterArgument, g3, o'])
      (.inr ⟨by simp [enterArgument, g1], by simp [enterArgument, g2, o']⟩) ?_ ?_ (by simp [enterArgument, g6, o']) rfl
    · have : o'.long = [] := e4
      simp [enterArgument, g4, this]
    · have : o'.short = 0 := e3
      rw [this]
      simp [enterArgument, g5]

theorem call_inv {s : Reg} (hs : Inv s) (c : Call) (hc : c.charShort) (hr : (call s c).2 ≠ .ub) : Inv (call s c).1 := by
  cases c with
  | conflictResolution on => exact SameEntries.inv (s := s) ⟨rfl, rfl, rfl, rfl, rfl, rfl⟩ hs (Int.le_refl _)
  | addOption k sh l h a =>
    refine addOption_inv hs hc (t := _) (r := (addOption s k sh l h a).2) rfl ?_
    intro e; apply hr; simp [call, e]
  | addArgument k h a =>
    refine addArgument_inv hs (t := _) (r := (addArgument s k h a).2) rfl ?_
    intro e; apply hr; simp [call, e]
  | configure id f => exact hs.update id f

theorem calls_inv {s t : Reg} (hs : Inv s) (cs : List Call) (hc : ∀ c ∈ cs, c.charShort) (h : calls s cs = some t) : Inv t := by
  induction cs generalizing s with
  | nil => cases h; exact hs
  | cons c cs ih =>
    unfold calls at h
    have hne : (call s c).2 ≠ .ub := fun e => by rw [e] at h; cases h
    refine ih (call_inv hs c (hc c (by simp)) hne) (fun c' h' => hc c' (by simp [h'])) ?_
    revert h hne
    cases (call s c).2 <;> simp

/-! ## Theorems -/

/-- C48.  After any sequence of registrations, failed ones included, no two registered entries share a result
path, a long option or a short option.  Missing: short options above 255 (`short_above_255_false`). -/
theorem registrations_apart_partial (cs : List Call) (hc : ∀ c ∈ cs, c.charShort) {s : Reg} (h : calls .init cs = some s) :
    (∀ e ∈ entries s, e.isSome) ∧
    ∀ i j : Nat, i ≠ j → ∀ a b, (entries s)[i]? = some (some a) → (entries s)[j]? = some (some b) → Apart a b := by
  have hs := calls_inv inv_init cs hc h
  constructor
  · intro e he
    obtain ⟨id, h1, rfl⟩ := List.mem_map.1 he
    obtain ⟨o, ho⟩ := hs.known id h1
    simp [ho]
  · intro i j hij a b ha hb
    simp only [entries, List.getElem?_map, Option.map_eq_some_iff] at ha hb
    obtain ⟨x, hx, ha⟩ := ha
    obtain ⟨y, hy, hb⟩ := hb
    have hne : x ≠ y := by
      intro e; subst e
      obtain ⟨hi, hx⟩ := List.getElem?_eq_some_iff.1 hx
      obtain ⟨hj, hy⟩ := List.getElem?_eq_some_iff.1 hy
      exact hij ((List.getElem_inj hs.nodup).1 (hx.trans hy.symm))
    refine ⟨fun e => ?_, fun h1 e => ?_, fun h1 h2 e => ?_⟩
    · have h3 := hs.path x a ha
      rw [e, hs.path y b hb] at h3
      exact hne (by simpa using h3.symm)
    · have h3 := hs.long x a ha h1
      rw [e] at h1 h3
      rw [hs.long y b hb h1] at h3
      exact hne (by simpa using h3.symm)
    · have h3 := hs.short x a ha h1
      rw [e, hs.short y b hb h2] at h3
      exact hne (by simpa using h3.symm)

theorem taken_short {s : Reg} (hs : Inv s) {c : Int8} (h : (find s.shorts c).isSome) :
    ∃ b, some b ∈ entries s ∧ b.short > 0 ∧ toChar b.short = c := by
  obtain ⟨id, hid⟩ := Option.isSome_iff_exists.1 h
  obtain ⟨o, ho, ho2⟩ := hs.shortOf _ _ hid
  exact ⟨o, List.mem_map.2 ⟨id, (hs.listed id o ho).1, ho⟩, ho2⟩

/-- A program that has made the calls `cs` and is in state `s`. -/
def Reached (cs : List Call) (s : Reg) : Prop := (∀ c ∈ cs, c.charShort) ∧ calls .init cs = some s

/-- C48.  A registration that fails leaves the registered entries as they were. -/
theorem failed_unchanged (s : Reg) (c : Call) (e : Err) (h : (call s c).2 = .throw e) : entries (call s c).1 = entries s := by
  cases c with
  | conflictResolution on => cases h
  | configure id f => cases h
  | addOption k sh l hp a =>
    obtain ⟨t, r, e1, _, h1, _⟩ := addOption_cases s k sh l hp a
    simp only [call, e1] at h ⊢
    cases r <;> simp at h
    have := (h1 _ rfl).1
    simp only [entries, this.1, this.2.1, this.2.2.1]
  | addArgument k hp a =>
    obtain ⟨t, r, e1, _, h1, _⟩ := addArgument_cases s k hp a
    simp only [call, e1] at h ⊢
    cases r <;> simp at h
    have := (h1 _ rfl).1
    simp only [entries, this.1, this.2.1, this.2.2.1]

/-- C48.  A successful `AddOption` registers one more option, with the requested path, action, help text, long
option and short option (none if it was taken and conflicts are resolved); the other entries stay, and the handle
it returns and the path lead to the new entry. -/
theorem option_added_partial {cs : List Call} {s : Reg} (hr : Reached cs s) {keypath : Bytes} {short : Int32} {long help : Bytes}
    {action : Action} (hc : short ≤ 255) {t : Reg} {id : Int32} (h : addOption s keypath short long help action = (t, .ok id)) :
    ∃ path o, PathM.parsePath keypath = .ok path ∧ find t.optionMap id = some o ∧ t.options = s.options ++ [id] ∧
      t.arguments = s.arguments ∧ (∀ i, i ≠ id → find t.optionMap i = find s.optionMap i) ∧ id ∉ s.options ++ s.arguments ∧
      o.path = path ∧ o.long = long ∧ o.cfg.action = action ∧ o.result = .null ∧ find t.paths (PathM.pathString path) = some id ∧
      (o.short = short ∨ (o.short = 0 ∧ s.resolve = true ∧
        ∃ b, some b ∈ entries s ∧ b.short > 0 ∧ toChar b.short = toChar short)) := by
  have hs := calls_inv inv_init cs hr.1 hr.2
  have ht := addOption_inv hs hc h (by simp)
  obtain ⟨t', r, e1, _, _, h2⟩ := addOption_cases s keypath short long help action
  rw [h] at e1; cases e1
  obtain ⟨t0, path, o, sh, h3, h4, h5, h6, rfl⟩ := h2 id rfl
  obtain ⟨e1, e2, e3, e4, e5, e6⟩ := newOpt_fields h6
  have hsh : sh.toInt ≤ 256 := by
    have := Int32.le_iff_toInt_le.1 hc
    have h255 : (255 : Int32).toInt = 255 := by decide
    rcases h5 with rfl | ⟨rfl, _⟩
    · omega
    · decide
  have hun := h4.unused hs hsh
  have hf : ∀ k, find (enterOption t0 o).optionMap k = if id = k then some o else find s.optionMap k := by
    intro k
    show find (insert ltInt t0.optionMap o.id o) k = _
    rw [h4.same.2.2.1, e1]
    exact find_insert _ _ hun k
  refine ⟨path, o, h3, by rw [hf, if_pos rfl], ?_, ?_, ?_, ?_, e2, e4, e5, e6, ?_, ?_⟩
  · show t0.options ++ [o.id] = _
    rw [h4.same.1, e1]
  · exact h4.same.2.1
  · intro i hi
    rw [hf, if_neg (fun e => hi e.symm)]
  · intro hm
    obtain ⟨o', ho'⟩ := hs.known _ hm
    rw [hun] at ho'; cases ho'
  · have := ht.path id o (by rw [hf, if_pos rfl])
    rw [← e2]; exact this
  · rw [e3]
    by_cases hz : sh = short
    · exact .inl hz
    · refine .inr ?_
      obtain ⟨h7, h8, h9, h10⟩ := h5.resolve_left hz
      refine ⟨h7, h8, ?_⟩
      exact taken_short hs h10

/-- C48.  `AddOption` on a well-formed, non-empty path fails only if an entry has the same path, the same long
option, the same short option while conflicts are not resolved, or if no option would be left. -/
theorem option_refused_partial {cs : List Call} {s : Reg} (hr : Reached cs s) {keypath : Bytes} {short : Int32} {long help : Bytes}
    {action : Action} {e : Err} (h : (addOption s keypath short long help action).2 = .throw e) {path : VPath}
    (hp : PathM.parsePath keypath = .ok path) :
    (∃ b, some b ∈ entries s ∧ PathM.pathString b.path = PathM.pathString path) ∨
    (∃ b, some b ∈ entries s ∧ long ≠ [] ∧ b.long = long) ∨
    (∃ b, some b ∈ entries s ∧ b.short > 0 ∧ toChar b.short = toChar short ∧ (s.resolve = false ∨ long = [])) ∨
    (long = [] ∧ short = 0) := by
  have hs := calls_inv inv_init cs hr.1 hr.2
  obtain ⟨t, r, e1, _, h1, _⟩ := addOption_cases s keypath short long help action
  rw [e1] at h
  subst h
  rcases (h1 e rfl).2.2 path hp with (h2 | h2 | h2) | ⟨h2, h3 | h3⟩
  · refine .inl ?_
    obtain ⟨id, hid⟩ := Option.isSome_iff_exists.1 h2
    obtain ⟨o, ho, ho2⟩ := hs.pathOf _ _ hid
    exact ⟨o, List.mem_map.2 ⟨id, (hs.listed id o ho).1, ho⟩, ho2⟩
  · obtain ⟨b, h4, h5, h6⟩ := taken_short hs h2.2.2
    exact .inr (.inr (.inl ⟨b, h4, h5, h6, .inl h2.1⟩))
  · refine .inr (.inl ?_)
    obtain ⟨id, hid⟩ := Option.isSome_iff_exists.1 h2.2
    obtain ⟨o, ho, ho2⟩ := hs.longOf _ _ hid
    exact ⟨o, List.mem_map.2 ⟨id, (hs.listed id o ho).1, ho⟩, h2.1, ho2⟩
  · exact .inr (.inr (.inr ⟨h2, h3⟩))
  · obtain ⟨b, h4, h5, h6⟩ := taken_short hs h3.2.2
    exact .inr (.inr (.inl ⟨b, h4, h5, h6, .inr h2⟩))

/-! ### Non-vacuity and findings -/

/-- Option aa stored at "a", option b or bb at "b", a refused second -b, and a positional "c". -/
def exCalls : List Call := [.addOption [97] 0 [97, 97] [] .store, .addOption [98] 98 [98, 98] [] .store,
  .addOption [100] 98 [] [] .store, .addArgument [99] [] .store]

def exReg : Reg := ((calls .init exCalls).getD .init)

/-- The hypotheses are met: three entries, and the failed registration left none. -/
example : Reached exCalls exReg ∧ exReg.options = [257, 98] ∧ exReg.arguments = [258] ∧ (entries exReg).length = 3 := by
  refine ⟨⟨?_, ?_⟩, ?_⟩
  · simp [exCalls, Call.charShort]
  · rfl
  · decide

/-- C48, finding: a short option of 257 takes the number of the first option without short option.  The second
registration succeeds, but its handle is the first option's: "--bb" stores at "a", and "a" is listed twice. -/
theorem short_above_255_false :
    ∃ s o, calls .init [.addOption [97] 0 [97, 97] [] .store, .addOption [98] 257 [98, 98] [] .store] = some s ∧
      s.options = [257, 257] ∧ entries s = [some o, some o] ∧ o.path = [.key [97]] ∧
      find s.longs [98, 98] = some 257 ∧ ¬ Apart o o := by
  refine ⟨_, _, rfl, rfl, rfl, rfl, rfl, fun h => h.1 rfl⟩

/-- C48, finding: registering the empty path is undefined (its last element is looked at). -/
theorem empty_path_ub : (addOption .init [] 97 [] [] .store).2 = .ub ∧ (addArgument .init [] [] .store).2 = .ub := ⟨rfl, rfl⟩

end Verif.Args
