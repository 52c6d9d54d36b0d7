import Verif.Args.HelpSpec
import Verif.Args.DescSound
/-!
# The help is laid out as specified
-/

namespace Verif.Args
open Verif JsonDrv Schema

variable {w : World} {s : St}

/-! ## Rendering -/

theorem renderAll_append (a b : List Piece) :
    renderAll w (a ++ b) = (do let x ← renderAll w a; let y ← renderAll w b; return x ++ y) := by
  induction a with
  | nil =>
    simp only [List.nil_append, renderAll, Out.bind_ok]
    cases renderAll w b <;> simp
  | cons p ps ih =>
    simp only [List.cons_append, renderAll, ih]
    cases p.render w <;> simp

theorem render_text (t : Bytes) : renderAll w [.text t] = .ok t := by simp [renderAll, Piece.render]

theorem render_usage (os : List Opt) : renderAll w (os.map .usage) = usageParts w os := by
  induction os with
  | nil => rfl
  | cons o os ih => simp only [List.map_cons, renderAll, usageParts, Piece.render, ih]

theorem render_entry (os : List Opt) : renderAll w (os.map .entry) = helpLines w true os := by
  induction os with
  | nil => rfl
  | cons o os ih => simp only [List.map_cons, renderAll, helpLines, Piece.render, ih]

theorem helpLine_shown {adv : Bool} {o : Opt} (h : (adv || !o.cfg.advanced) = true) : helpLine w adv o = helpLine w true o := by
  unfold helpLine
  rw [if_neg (by cases adv <;> simp_all), if_neg (by simp)]

theorem helpLine_hidden {adv : Bool} {o : Opt} (h : (adv || !o.cfg.advanced) = false) : helpLine w adv o = .ok [] := by
  unfold helpLine
  rw [if_pos (by cases adv <;> simp_all)]

theorem render_entriesIf (adv : Bool) (os : List Opt) : renderAll w (entriesIf adv os) = helpLines w adv os := by
  induction os with
  | nil => rfl
  | cons o os ih =>
    unfold entriesIf at ih ⊢
    cases h : (adv || !o.cfg.advanced) with
    | true =>
      rw [List.filter_cons_of_pos (by simpa using h), List.map_cons]
      simp only [renderAll, helpLines, Piece.render, ih, helpLine_shown h]
    | false =>
      rw [List.filter_cons_of_neg (by simpa using h), ih]
      simp only [helpLines, helpLine_hidden h, Out.bind_ok]
      cases helpLines w adv os <;> simp

/-! ## Which group an option goes to -/

theorem heads_titled {n : Bytes} {g : Group} (h : find s.groups n = some g) : heads s n = g.titled := by
  unfold heads Group.titled
  rw [h]
  cases h1 : g.title <;> cases h2 : g.description <;> simp [h1, h2]

/-- The names of the groups of an option, in order. -/
theorem inOrder_sorted (gs : List Bytes) : (inOrder gs).Pairwise (fun a b => keyLt a b = true) := by
  have key : ∀ (gs : List Bytes) (m : List (Bytes × Unit)), AMap.Sorted m → AMap.Sorted (gs.foldl (fun m g => AMap.set m g ()) m) := by
    intro gs
    induction gs with
    | nil => exact fun m h => h
    | cons g gs ih => exact fun m h => ih _ (AMap.sorted_set h g ())
  have h := key gs [] trivial
  unfold inOrder
  generalize gs.foldl (fun m g => AMap.set m g ()) [] = m at h
  induction m with
  | nil => exact .nil
  | cons e r ih =>
    refine List.Pairwise.cons (fun b hb => ?_) (ih h.2)
    obtain ⟨p, hp, rfl⟩ := List.mem_map.1 hb
    exact h.1 p hp

theorem mem_inOrder (gs : List Bytes) (n : Bytes) : n ∈ inOrder gs ↔ n ∈ gs := by
  have key : ∀ (gs : List Bytes) (m : List (Bytes × Unit)), n ∈ (gs.foldl (fun m g => AMap.set m g ()) m).map (·.1) ↔ n ∈ gs ∨ n ∈ m.map (·.1) := by
    intro gs
    induction gs with
    | nil => simp
    | cons g gs ih =>
      intro m
      rw [List.foldl_cons, ih]
      have : n ∈ (AMap.set m g ()).map (·.1) ↔ n = g ∨ n ∈ m.map (·.1) := by
        induction m with
        | nil => simp [AMap.set]
        | cons e r ih' =>
          obtain ⟨a, b⟩ := e
          simp only [AMap.set]
          split
          · rename_i h; subst h; simp
          · split
            · simp
            · simp only [List.map_cons, List.mem_cons, ih']
              constructor
              · rintro (h | h | h) <;> simp [h]
              · rintro (h | h | h) <;> simp [h]
      rw [this, List.mem_cons]
      constructor
      · rintro (h | h | h) <;> simp [h]
      · rintro ((h | h) | h) <;> simp [h]
  have := key gs []
  simpa [inOrder] using this

theorem find_absent {α : Type} {m : List (Bytes × α)} {k : Bytes} (h : find m k = none) : k ∉ m.map (·.1) := by
  induction m with
  | nil => simp
  | cons e r ih =>
    obtain ⟨a, b⟩ := e
    unfold find at h
    split at h
    · cases h
    · rename_i hn
      simp only [List.map_cons, List.mem_cons, not_or]
      exact ⟨fun e => hn e.symm, ih h⟩

theorem findHeading_none {ns : List Bytes} (h : ∀ n ∈ ns, n ∈ s.groups.map (·.1)) (hn : (findHeading s ns).2 = none) :
    findHeading s ns = ([], none) ∧ ∀ n ∈ ns, heads s n = false := by
  induction ns with
  | nil => exact ⟨rfl, nofun⟩
  | cons n ns ih =>
    unfold findHeading at hn ⊢
    cases hf : find s.groups n with
    | none =>
      have := h n List.mem_cons_self
      exact absurd this (find_absent hf)
    | some g =>
      rw [hf] at hn
      dsimp only at hn ⊢
      split at hn
      · cases hn
      · rename_i ht
        obtain ⟨h1, h2⟩ := ih (fun m hm => h m (List.mem_cons_of_mem _ hm)) hn
        rw [if_neg ht]
        refine ⟨h1, fun m hm => ?_⟩
        rcases List.mem_cons.1 hm with rfl | hm
        · rw [heads_titled hf]; simpa using ht
        · exact h2 m hm

theorem findHeading_some {ns : List Bytes} (h : ∀ n ∈ ns, n ∈ s.groups.map (·.1)) (hs : ns.Pairwise (fun a b => keyLt a b = true)) {n : Bytes} {g : Group}
    (hn : (findHeading s ns).2 = some (n, g)) :
    findHeading s ns = ([], some (n, g)) ∧ n ∈ ns ∧ find s.groups n = some g ∧ heads s n = true ∧ ∀ m ∈ ns, heads s m = true → keyLt m n = false := by
  induction ns with
  | nil => cases hn
  | cons a ns ih =>
    unfold findHeading at hn ⊢
    cases hf : find s.groups a with
    | none =>
      have := h a List.mem_cons_self
      exact absurd this (find_absent hf)
    | some x =>
      rw [hf] at hn
      dsimp only at hn ⊢
      rw [List.pairwise_cons] at hs
      split at hn
      · rename_i ht
        cases hn
        rw [if_pos ht]
        refine ⟨rfl, List.mem_cons_self, hf, by rw [heads_titled hf]; exact ht, fun m hm _ => ?_⟩
        rcases List.mem_cons.1 hm with rfl | hm
        · exact keyLt_irrefl _
        · exact keyLt_asymm (hs.1 m hm)
      · rename_i ht
        obtain ⟨h1, h2, h3, h4, h5⟩ := ih (fun m hm => h m (List.mem_cons_of_mem _ hm)) hs.2 hn
        rw [if_neg ht]
        refine ⟨h1, List.mem_cons_of_mem _ h2, h3, h4, fun m hm hh => ?_⟩
        rcases List.mem_cons.1 hm with rfl | hm
        · rw [heads_titled hf] at hh; exact absurd hh ht
        · exact h5 m hm hh

/-- Where an option with known groups goes. -/
theorem heading_cases {o : Opt} (h : ∀ n ∈ o.cfg.groups, n ∈ s.groups.map (·.1)) :
    (findHeading s (inOrder o.cfg.groups) = ([], none) ∧ loose s o = true ∧ ∀ n, under s n o = false) ∨
    ∃ n g, findHeading s (inOrder o.cfg.groups) = ([], some (n, g)) ∧ loose s o = false ∧ find s.groups n = some g ∧ ∀ m, under s m o = decide (m = n) := by
  have h' : ∀ n ∈ inOrder o.cfg.groups, n ∈ s.groups.map (·.1) := fun n hn => h n ((mem_inOrder _ _).1 hn)
  cases hn : (findHeading s (inOrder o.cfg.groups)).2 with
  | none =>
    obtain ⟨h1, h2⟩ := findHeading_none h' hn
    have h3 : ∀ n ∈ o.cfg.groups, heads s n = false := fun n hn => h2 n ((mem_inOrder _ _).2 hn)
    refine .inl ⟨h1, ?_, fun n => ?_⟩
    · unfold loose
      rw [List.all_eq_true]
      intro n hn; rw [h3 n hn]; rfl
    · cases hu : under s n o with
      | false => rfl
      | true =>
        unfold under at hu
        simp only [Bool.and_eq_true, List.contains_iff_mem] at hu
        rw [h3 n hu.1.1] at hu; exact absurd hu.1.2 (by simp)
  | some e =>
    obtain ⟨n, g⟩ := e
    obtain ⟨h1, h2, h3, h4, h5⟩ := findHeading_some h' (inOrder_sorted _) hn
    rw [mem_inOrder] at h2
    refine .inr ⟨n, g, h1, ?_, h3, fun m => ?_⟩
    · cases hl : loose s o with
      | false => rfl
      | true =>
        unfold loose at hl
        rw [List.all_eq_true] at hl
        have := hl n h2
        rw [h4] at this; cases this
    · have hall : ∀ m ∈ o.cfg.groups, heads s m = true → keyLt m n = false := fun m hm => h5 m ((mem_inOrder _ _).2 hm)
      by_cases e : m = n
      · subst e
        rw [decide_eq_true rfl]
        unfold under
        simp only [Bool.and_eq_true, List.contains_iff_mem, List.all_eq_true]
        refine ⟨⟨h2, h4⟩, fun x hx => ?_⟩
        cases hh : heads s x with
        | false => rfl
        | true => rw [hall x hx hh]; rfl
      · rw [decide_eq_false e]
        cases hu : under s m o with
        | false => rfl
        | true =>
          unfold under at hu
          simp only [Bool.and_eq_true, List.contains_iff_mem, List.all_eq_true] at hu
          obtain ⟨⟨u1, u2⟩, u3⟩ := hu
          have a := hall m u1 u2
          have b := u3 n h2
          rw [h4] at b
          rcases keyLt_trichotomy m n with c | c | c
          · rw [a] at c; cases c
          · exact absurd c e
          · rw [c] at b; cases b

/-! ## The groups collected -/

/-- What `groupings` is after the options `os`. -/
def grouping (s : St) (os : List Opt) (e : Bytes × Group) : Option (Bytes × HelpGroup) :=
  if (os.filter (under s e.1)).isEmpty then none else some (e.1, ⟨e.2.title, e.2.description, e.2.advanced, os.filter (under s e.1)⟩)

theorem grouping_other {os : List Opt} {o : Opt} {e : Bytes × Group} (h : under s e.1 o = false) : grouping s (os ++ [o]) e = grouping s os e := by
  unfold grouping
  simp [List.filter_append, h]

theorem groupings_other {os : List Opt} {o : Opt} {gs : List (Bytes × Group)} (h : ∀ e ∈ gs, under s e.1 o = false) :
    gs.filterMap (grouping s (os ++ [o])) = gs.filterMap (grouping s os) := by
  induction gs with
  | nil => rfl
  | cons e gs ih =>
    simp only [List.filterMap_cons, grouping_other (h e List.mem_cons_self), ih fun e he => h e (List.mem_cons_of_mem _ he)]

/-- The keys of the groups collected. -/
theorem mem_groupings {os : List Opt} {gs : List (Bytes × Group)} {k : Bytes} (h : k ∈ (gs.filterMap (grouping s os)).map (·.1)) : k ∈ gs.map (·.1) := by
  obtain ⟨x, hx, rfl⟩ := List.mem_map.1 h
  obtain ⟨e, he, hg⟩ := List.mem_filterMap.1 hx
  unfold grouping at hg
  split at hg
  · cases hg
  · cases hg; exact List.mem_map.2 ⟨e, he, rfl⟩

theorem find_notMem {α : Type} {m : List (Bytes × α)} {k : Bytes} (h : k ∉ m.map (·.1)) : find m k = none := by
  cases hf : find m k with
  | none => rfl
  | some v =>
    have := find_mem hf
    exact absurd (List.mem_map.2 ⟨_, this, rfl⟩) h

theorem above_notMem {α : Type} {n : Bytes} {gs : List (Bytes × α)} (h : AMap.above n gs) : n ∉ gs.map (·.1) := by
  intro hm
  obtain ⟨p, hp, e⟩ := List.mem_map.1 hm
  have := h p hp
  rw [e, keyLt_irrefl] at this; cases this

/-- Placing an option under a group. -/
theorem place_step {os : List Opt} {o : Opt} {n : Bytes} {g : Group} (hu : ∀ m, under s m o = decide (m = n)) :
    ∀ {gs : List (Bytes × Group)}, AMap.Sorted gs → find gs n = some g →
    (match find (gs.filterMap (grouping s os)) n with
      | none => insert keyLt (gs.filterMap (grouping s os)) n ⟨g.title, g.description, g.advanced, [o]⟩
      | some _ => (gs.filterMap (grouping s os)).map fun (k, x) => (k, if k = n then { x with members := x.members ++ [o] } else x)) =
    gs.filterMap (grouping s (os ++ [o])) := by
  intro gs
  induction gs with
  | nil => exact fun _ h => by cases h
  | cons e gs ih =>
    obtain ⟨a, x⟩ := e
    intro hs hf
    have hnot := above_notMem hs.1
    unfold find at hf
    by_cases ea : a = n
    · subst ea
      rw [if_pos rfl] at hf
      cases hf
      have hrest : gs.filterMap (grouping s (os ++ [o])) = gs.filterMap (grouping s os) :=
        groupings_other fun e he => by
          rw [hu, decide_eq_false]
          rintro rfl
          exact hnot (List.mem_map.2 ⟨e, he, rfl⟩)
      have habs : a ∉ (gs.filterMap (grouping s os)).map (·.1) := fun h => hnot (mem_groupings h)
      have hnew : grouping s (os ++ [o]) (a, g) = some (a, ⟨g.title, g.description, g.advanced, os.filter (under s a) ++ [o]⟩) := by
        unfold grouping
        have : List.filter (under s a) (os ++ [o]) = os.filter (under s a) ++ [o] := by simp [List.filter_append, hu]
        dsimp only
        rw [this, if_neg (by simp)]
      have hold : grouping s os (a, g) = if (os.filter (under s a)).isEmpty then none else
        some (a, ⟨g.title, g.description, g.advanced, os.filter (under s a)⟩) := rfl
      rw [List.filterMap_cons, List.filterMap_cons, hnew, hrest, hold]
      by_cases he : (os.filter (under s a)).isEmpty = true
      · rw [if_pos he]
        dsimp only
        have hnil : os.filter (under s a) = [] := by simpa using he
        rw [find_notMem habs, hnil]
        have hab : AMap.above a (gs.filterMap (grouping s os)) := by
          intro p hp
          obtain ⟨e, he, hg⟩ := List.mem_filterMap.1 hp
          have := hs.1 e he
          unfold grouping at hg
          split at hg
          · cases hg
          · cases hg; exact this
        change insert keyLt (gs.filterMap (grouping s os)) a _ = _
        generalize gs.filterMap (grouping s os) = r at hab
        cases r with
        | nil => rfl
        | cons p r =>
          obtain ⟨k, y⟩ := p
          have h1 := hab (k, y) List.mem_cons_self
          unfold insert
          rw [if_neg (fun e => keyLt_ne h1 e.symm), if_pos h1]
          rfl
      · rw [if_neg he]
        dsimp only
        rw [find, if_pos rfl]
        dsimp only
        rw [List.map_cons]
        dsimp only
        rw [if_pos rfl]
        congr 1
        change (gs.filterMap (grouping s os)).map _ = gs.filterMap (grouping s os)
        generalize gs.filterMap (grouping s os) = r at habs
        induction r with
        | nil => rfl
        | cons p r ihr =>
          obtain ⟨k, y⟩ := p
          simp only [List.map_cons, List.mem_cons, not_or] at habs
          rw [List.map_cons, ihr habs.2]
          dsimp only
          rw [if_neg (fun e => habs.1 e.symm)]
    · rw [if_neg ea] at hf
      have hne : under s a o = false := by rw [hu, decide_eq_false ea]
      have ih' := ih hs.2 hf
      rw [List.filterMap_cons, List.filterMap_cons, grouping_other (e := (a, x)) hne]
      cases hg : grouping s os (a, x) with
      | none => exact ih'
      | some y =>
        obtain ⟨k, y⟩ := y
        have hk : k = a := by
          unfold grouping at hg
          split at hg
          · cases hg
          · cases hg; rfl
        subst hk
        dsimp only
        rw [find, if_neg ea]
        have hlt : keyLt n k = false := by
          have := hs.1 _ (find_mem hf)
          exact keyLt_asymm this
        cases hq : find (gs.filterMap (grouping s os)) n with
        | none =>
          rw [hq] at ih'
          dsimp only at ih' ⊢
          rw [insert, if_neg ea, if_neg (by rw [hlt]; simp), ih']
        | some z =>
          rw [hq] at ih'
          dsimp only at ih' ⊢
          rw [List.map_cons, ih']
          dsimp only
          rw [if_neg ea]

/-- All options are placed. -/
theorem placeOptions_eq (hs : AMap.Sorted s.groups) (os : List Opt) (h : ∀ o ∈ os, ∀ n ∈ o.cfg.groups, n ∈ s.groups.map (·.1)) :
    placeOptions s os = ⟨[], os.filter (loose s), s.groups.filterMap (grouping s os)⟩ := by
  have key : ∀ rs : List Opt, (∀ o ∈ rs, ∀ n ∈ o.cfg.groups, n ∈ s.groups.map (·.1)) →
      placeOptions s rs.reverse = ⟨[], rs.reverse.filter (loose s), s.groups.filterMap (grouping s rs.reverse)⟩ := by
    intro rs
    induction rs with
    | nil =>
      intro _
      have : s.groups.filterMap (grouping s []) = [] := by
        rw [List.filterMap_eq_nil_iff]
        intro e _; rfl
      show (⟨[], [], []⟩ : Sections) = ⟨[], [], s.groups.filterMap (grouping s [])⟩
      rw [this]
    | cons o rs ih =>
      intro h
      have h1 := ih fun o ho => h o (List.mem_cons_of_mem _ ho)
      rw [List.reverse_cons]
      unfold placeOptions at h1 ⊢
      rw [List.foldl_append, h1]
      simp only [List.foldl_cons, List.foldl_nil]
      unfold placeOption
      rcases heading_cases (h o List.mem_cons_self) with ⟨e1, e2, e3⟩ | ⟨n, g, e1, e2, e3, e4⟩
      · rw [e1]
        simp only [List.filter_append, List.append_nil]
        rw [groupings_other fun e _ => e3 e.1]
        simp [e2]
      · rw [e1]
        rw [Sections.mk.injEq]
        exact ⟨rfl, by simp [List.filter_append, e2], place_step e4 hs e3⟩
  have := key os.reverse (fun o ho => h o (List.mem_reverse.1 ho))
  rwa [List.reverse_reverse] at this

theorem render_groups (adv : Bool) (os : List Opt) (gs : List (Bytes × Group)) :
    renderAll w (gs.flatMap (groupPieces s adv os)) = groupParts w adv (gs.filterMap (grouping s os)) := by
  induction gs with
  | nil => rfl
  | cons e gs ih =>
    rw [List.flatMap_cons, renderAll_append, ih, List.filterMap_cons]
    unfold groupPieces grouping
    by_cases h1 : (os.filter (under s e.1)).isEmpty = true
    · rw [if_pos (by simp [h1]), if_pos h1]
      simp only [renderAll, Out.bind_ok]
      cases groupParts w adv _ <;> simp
    · rw [if_neg h1]
      dsimp only
      rw [groupParts]
      by_cases h2 : (e.2.advanced && !adv) = true
      · rw [if_pos (by simp [h2]), if_pos h2]
        simp only [renderAll, Out.bind_ok]
        cases groupParts w adv _ <;> simp
      · rw [if_neg (by simp only [Bool.or_eq_true, not_or]; exact ⟨h1, h2⟩), if_neg h2]
        simp only [renderAll, Piece.render, Out.bind_ok, render_entriesIf]
        cases helpLines w adv _ <;> simp

theorem entriesOf_mem {is : List Int32} {os : List Opt} (h : entriesOf s is = .ok os) : ∀ o ∈ os, ∃ i ∈ is, s.entry i = some o := by
  induction is generalizing os with
  | nil => cases h; nofun
  | cons i is ih =>
    unfold entriesOf at h
    split at h
    · cases h
    · rename_i o ho
      cases hr : entriesOf s is with
      | throw e => rw [hr] at h; cases h
      | ub => rw [hr] at h; cases h
      | ok r =>
        rw [hr] at h
        cases h
        intro x hx
        rcases List.mem_cons.1 hx with rfl | hx
        · exact ⟨i, List.mem_cons_self, ho⟩
        · obtain ⟨j, hj, h⟩ := ih hr x hx
          exact ⟨j, List.mem_cons_of_mem _ hj, h⟩

theorem entriesOf_nil {is : List Int32} {os : List Opt} (h : entriesOf s is = .ok os) : is = [] ↔ os = [] := by
  cases is with
  | nil => cases h; simp
  | cons i is =>
    unfold entriesOf at h
    split at h
    · cases h
    · cases hr : entriesOf s is with
      | throw e => rw [hr] at h; cases h
      | ub => rw [hr] at h; cases h
      | ok r => rw [hr] at h; cases h; simp

/-- The help is what the layout says. -/
theorem help_is_layout {P : Parser} (hs : AMap.Sorted P.st.groups) (hg : Grouped P.st) {as_ os : List Opt}
    (ha : entriesOf P.st P.st.reg.arguments = .ok as_) (ho : entriesOf P.st P.st.reg.options = .ok os) (adv : Bool) :
    helpText w P adv = renderAll w (layout P adv as_ os) := by
  have hpl := placeOptions_eq hs os fun o h => by
    obtain ⟨i, _, hi⟩ := entriesOf_mem ho o h
    exact hg i o (find_mem hi)
  have na : (P.st.reg.arguments ≠ []) = (as_ ≠ []) := by rw [ne_eq, entriesOf_nil ha]
  have no : (P.st.reg.options ≠ []) = (os ≠ []) := by rw [ne_eq, entriesOf_nil ho]
  unfold helpText layout
  simp only [ha, ho, Out.bind_ok, hpl, renderAll_append, render_text, render_usage, render_entry, render_entriesIf, render_groups, na, no]
  cases usageParts w as_ <;> simp

end Verif.Args
