import Verif.Args.HelpLayout
/-!
# The groups of the entries of a parser exist; every entry is printed once
-/

namespace Verif.Args
open Verif JsonDrv Schema

variable {w : World} {s : St}

/-! ## Groups exist -/

theorem mem_insert_of {κ α : Type} [DecidableEq κ] {lt : κ → κ → Bool} {m : List (κ × α)} {k : κ} {v : α} {x : κ × α}
    (h : x ∈ insert lt m k v) : x = (k, v) ∨ x ∈ m := by
  induction m with
  | nil => exact .inl (by simpa [insert] using h)
  | cons e r ih =>
    obtain ⟨a, b⟩ := e
    unfold insert at h
    split at h
    · exact .inr h
    · split at h
      · rcases List.mem_cons.1 h with h | h
        · exact .inl h
        · exact .inr h
      · rcases List.mem_cons.1 h with h | h
        · exact .inr (h ▸ List.mem_cons_self)
        · rcases ih h with h | h
          · exact .inl h
          · exact .inr (List.mem_cons_of_mem _ h)

theorem keys_of_insert {κ α : Type} [DecidableEq κ] {lt : κ → κ → Bool} (m : List (κ × α)) (k : κ) (v : α) :
    k ∈ (insert lt m k v).map (·.1) ∧ ∀ a ∈ m.map (·.1), a ∈ (insert lt m k v).map (·.1) := by
  induction m with
  | nil => simp [insert]
  | cons e r ih =>
    obtain ⟨a, b⟩ := e
    unfold insert
    split
    · rename_i h; subst h; exact ⟨by simp, fun _ h => h⟩
    · split
      · exact ⟨by simp, fun x hx => List.mem_cons_of_mem _ hx⟩
      · refine ⟨List.mem_cons_of_mem _ ih.1, fun x hx => ?_⟩
        rcases List.mem_cons.1 hx with rfl | hx
        · exact List.mem_cons_self
        · exact List.mem_cons_of_mem _ (ih.2 x hx)

/-- Entries are kept or new and in no group. -/
def NewLoose (m m' : List (Int32 × Opt)) : Prop := ∀ k o, (k, o) ∈ m' → (k, o) ∈ m ∨ o.cfg.groups = []

theorem newLoose_same {r t : Reg} (h : SameEntries r t) : NewLoose r.optionMap t.optionMap := by
  rw [h.2.2.1]; exact fun _ _ h => .inl h

theorem addOption_loose (r : Reg) (k : Bytes) (sh : Int32) (l hp : Bytes) (a : Action) : NewLoose r.optionMap (addOption r k sh l hp a).1.optionMap := by
  unfold addOption
  cases PathM.parsePath k with
  | throw x => exact fun _ _ h => .inl h
  | ub => exact fun _ _ h => .inl h
  | ok path =>
    obtain ⟨t, x, e, h1, _⟩ := checkExisting_cases r path sh l
    dsimp only
    rw [e]
    match x with
    | .throw _ => exact newLoose_same h1
    | .ub => exact newLoose_same h1
    | .ok (id, sh') =>
      dsimp only
      split
      · exact newLoose_same h1
      · cases h2 : newOpt id path sh' l hp a with
        | throw _ => exact newLoose_same (t := t) h1
        | ub => exact newLoose_same (t := t) h1
        | ok o =>
          intro k o' h
          rcases mem_insert_of (show (k, o') ∈ insert ltInt t.optionMap o.id o from h) with h | h
          · cases h; exact .inr (newOpt_cfg h2).2.2
          · rw [h1.2.2.1] at h; exact .inl h

theorem addArgument_loose (r : Reg) (k hp : Bytes) (a : Action) : NewLoose r.optionMap (addArgument r k hp a).1.optionMap := by
  unfold addArgument
  cases PathM.parsePath k with
  | throw x => exact fun _ _ h => .inl h
  | ub => exact fun _ _ h => .inl h
  | ok path =>
    obtain ⟨t, x, e, h1, _⟩ := checkExisting_cases r path 0 []
    dsimp only
    rw [e]
    match x with
    | .throw _ => exact newLoose_same h1
    | .ub => exact newLoose_same h1
    | .ok (id, sh') =>
      dsimp only
      cases h2 : newOpt id path 0 [] hp a with
      | throw _ => exact newLoose_same (t := t) h1
      | ub => exact newLoose_same (t := t) h1
      | ok o =>
        intro k o' h
        rcases mem_insert_of (show (k, o') ∈ insert ltInt t.optionMap o.id { o with cfg := argDefaults o.cfg } from h) with h | h
        · cases h; exact .inr (newOpt_cfg h2).2.2
        · rw [h1.2.2.1] at h; exact .inl h

theorem Grouped.reg (h : Grouped s) {t : Reg} (hl : NewLoose s.reg.optionMap t.optionMap) : Grouped { s with reg := t } := by
  intro k o ho n hn
  rcases hl k o ho with h1 | h1
  · exact h k o h1 n hn
  · rw [h1] at hn; cases hn

theorem Grouped.setCfg (h : Grouped s) (id : Int32) (f : Config → Config) (hf : ∀ c, (f c).groups = c.groups) : Grouped (Args.setCfg s id f) := by
  intro k o ho n hn
  obtain ⟨x, hx, e⟩ := List.mem_map.1 (show (k, o) ∈ s.reg.optionMap.map _ from ho)
  obtain ⟨k', o'⟩ := x
  cases e
  refine h k o' hx n ?_
  split at hn
  · rw [← hf]; exact hn
  · exact hn

theorem Grouped.setGroup (h : Grouped s) (n : Bytes) (f : Group → Group) : Grouped (Args.setGroup s n f) := by
  intro k o ho m hm
  have := h k o ho m hm
  simpa [Args.setGroup, List.map_map, Function.comp_def] using this

theorem keys_setGroup (s : St) (n : Bytes) (f : Group → Group) : (Args.setGroup s n f).groups.map (·.1) = s.groups.map (·.1) := by
  simp [Args.setGroup, List.map_map, Function.comp_def]

theorem Grouped.getGroup (h : Grouped s) (n : Bytes) : Grouped (Args.getGroup s n) ∧ n ∈ (Args.getGroup s n).groups.map (·.1) :=
  ⟨fun k o ho m hm => (keys_of_insert s.groups n _).2 m (h k o ho m hm), (keys_of_insert s.groups n _).1⟩

theorem keys_addMember (s : St) (n : Bytes) (id : Int32) : (Args.addMember s n id).groups.map (·.1) = s.groups.map (·.1) := by
  show (Args.setGroup s n fun g => { g with members := addOnce g.members id }).groups.map (·.1) = _
  exact keys_setGroup s n _

theorem Grouped.addMember (h : Grouped s) {n : Bytes} (hn : n ∈ s.groups.map (·.1)) (id : Int32) : Grouped (Args.addMember s n id) := by
  intro k o ho m hm
  obtain ⟨x, hx, e⟩ := List.mem_map.1 (show (k, o) ∈ s.reg.optionMap.map _ from ho)
  obtain ⟨k', o'⟩ := x
  rw [keys_addMember]
  cases e
  split at hm
  · have : m ∈ o'.cfg.groups ∨ m = n := by
      unfold addOnce at hm
      dsimp only at hm
      split at hm
      · exact .inl hm
      · simpa using hm
    rcases this with h1 | rfl
    · exact h k o' hx m h1
    · exact hn
  · exact h k o' hx m hm

/-- An effect that keeps the groups of the entries, and all groups there are. -/
def KeepG (s : St) (e : Effect) : Prop := Grouped e.1 ∧ ∀ n ∈ s.groups.map (·.1), n ∈ e.1.groups.map (·.1)

theorem KeepG.trans {a : St} {e e' : Effect} (h : KeepG a e) (h' : KeepG e.1 e') : KeepG a e' := ⟨h'.1, fun n hn => h'.2 n (h.2 n hn)⟩

theorem keepG_refl (h : Grouped s) (r : Out Unit) : KeepG s (s, r) := ⟨h, fun _ h => h⟩

theorem keepG_withVal {α : Type} (h : Grouped s) {r : Out α} {f : α → Effect} (hf : ∀ a, KeepG s (f a)) : KeepG s (withVal s r f) := by
  cases r with
  | ok a => exact hf a
  | throw e => exact keepG_refl h _
  | ub => exact keepG_refl h _

theorem keepG_next {a : St} {r : Effect} {f : St → Effect} (h : KeepG a r) (hf : Grouped r.1 → KeepG r.1 (f r.1)) : KeepG a (next r f) := by
  obtain ⟨s, r⟩ := r
  cases r with
  | ok a => exact h.trans (hf h.1)
  | throw e => exact h
  | ub => exact h

theorem keepG_each {α : Type} {f : St → α → Effect} (P : St → Prop) (hP : ∀ s t : St, P s → (∀ n ∈ s.groups.map (·.1), n ∈ t.groups.map (·.1)) → P t)
    (hf : ∀ s x, Grouped s → P s → KeepG s (f s x)) : ∀ (xs : List α) {s : St}, Grouped s → P s → KeepG s (each f s xs)
  | [], _, h, _ => keepG_refl h _
  | x :: xs, s, h, hp => keepG_next (hf s x h hp) fun h' => keepG_each P hP hf xs h' (hP s _ hp (hf s x h hp).2)

theorem keepG_onReg {α : Type} (h : Grouped s) {r : Reg × Out α} {f : St → α → Effect} (hl : NewLoose s.reg.optionMap r.1.optionMap)
    (hf : ∀ s a, Grouped s → KeepG s (f s a)) : KeepG s (onReg s r f) := by
  obtain ⟨t, r⟩ := r
  have h1 := h.reg hl
  cases r with
  | ok a => exact KeepG.trans (e := ({ s with reg := t }, .ok ())) ⟨h1, fun _ h => h⟩ (hf _ a h1)
  | throw e => exact ⟨h1, fun _ h => h⟩
  | ub => exact ⟨h1, fun _ h => h⟩

theorem keepG_set (h : Grouped s) (id : Int32) (f : Config → Config) (hf : ∀ c, (f c).groups = c.groups) (r : Out Unit) : KeepG s (setCfg s id f, r) :=
  ⟨h.setCfg id f hf, fun _ h => h⟩

theorem keepG_initOpt (h : Grouped s) (id : Int32) (o : Val) : KeepG s (initOpt s id o) := by
  unfold initOpt
  split
  · exact keepG_refl h _
  · refine keepG_withVal h fun t => ?_
    have h1 := h.setCfg id (fun c => { c with ty := t }) fun _ => rfl
    refine KeepG.trans (e := (_, .ok ())) ⟨h1, fun _ h => h⟩ ?_
    refine keepG_withVal h1 fun b => ?_
    have h2 := h1.setCfg id (fun c => { c with required := b }) fun _ => rfl
    refine KeepG.trans (e := (_, .ok ())) ⟨h2, fun _ h => h⟩ ?_
    refine keepG_withVal h2 fun a => ?_
    have h3 : Grouped (setAdvanced (setCfg (setCfg s id fun c => { c with ty := t }) id fun c => { c with required := b }) id a) :=
      h2.setCfg id (fun c => { c with advanced := a }) fun _ => rfl
    refine KeepG.trans (e := (_, .ok ())) ⟨h3, fun _ h => h⟩ ?_
    unfold initMerge
    split
    · exact keepG_set h3 _ (fun c => mergeOpt c _) (fun c => rfl) _
    · exact keepG_refl h3 _
    · exact keepG_refl h3 _

theorem keepG_mergeOption (h : Grouped s) (e : Bytes × Val) : KeepG s (mergeOption w s e) := by
  unfold mergeOption
  refine keepG_withVal h fun a => keepG_withVal h fun b => keepG_withVal h fun c => keepG_withVal h fun d => ?_
  exact keepG_onReg h (addOption_loose _ _ _ _ _ _) fun s id h => keepG_initOpt h id _

theorem keepG_mergeArgument (h : Grouped s) (o : Val) : KeepG s (mergeArgument w s o) := by
  unfold mergeArgument
  split
  · exact keepG_refl h _
  · refine keepG_withVal h fun a => keepG_withVal h fun b => keepG_withVal h fun c => ?_
    exact keepG_onReg h (addArgument_loose _ _ _ _) fun s id h => keepG_initOpt h id _

theorem keepG_addMember (h : Grouped s) {n : Bytes} (hn : n ∈ s.groups.map (·.1)) (id : Int32) (r : Out Unit) : KeepG s (addMember s n id, r) :=
  ⟨h.addMember hn id, fun m hm => by rw [keys_addMember]; exact hm⟩

theorem keepG_setGroup (h : Grouped s) (n : Bytes) (f : Group → Group) (r : Out Unit) : KeepG s (setGroup s n f, r) :=
  ⟨h.setGroup n f, fun m hm => by rw [keys_setGroup]; exact hm⟩

theorem keepG_mergeGroup (h : Grouped s) (e : Bytes × Val) : KeepG s (mergeGroup w s e) := by
  obtain ⟨n, o⟩ := e
  unfold mergeGroup
  dsimp only
  obtain ⟨h0, hn0⟩ := h.getGroup n
  refine KeepG.trans (e := (getGroup s n, .ok ())) ⟨h0, fun m hm => (keys_of_insert s.groups n _).2 m hm⟩ ?_
  change KeepG (getGroup s n) (initGroup w (getGroup s n) n o)
  generalize getGroup s n = s at h0 hn0
  unfold initGroup
  split
  · exact keepG_refl h0 _
  · rename_i g0 _
    have h := h0
    have hn := hn0
    clear h0 hn0
    refine keepG_withVal h fun t => ?_
    dsimp only
    have hk := keepG_setGroup h n (fun g => { g with title := t }) (.ok ())
    refine hk.trans ?_
    replace hn := hk.2 n hn
    replace h := hk.1
    dsimp only at h hn ⊢
    clear hk
    generalize setGroup s n (fun g => { g with title := t }) = s at h hn
    refine keepG_withVal h fun t => ?_
    have hk := keepG_setGroup h n (fun g => { g with description := t }) (.ok ())
    refine hk.trans ?_
    replace hn := hk.2 n hn
    replace h := hk.1
    dsimp only at h hn ⊢
    clear hk
    generalize setGroup s n (fun g => { g with description := t }) = s at h hn
    refine keepG_withVal h fun t => ?_
    have hk := keepG_setGroup h n (fun g => { g with required := t }) (.ok ())
    refine hk.trans ?_
    replace hn := hk.2 n hn
    replace h := hk.1
    dsimp only at h hn ⊢
    clear hk
    generalize setGroup s n (fun g => { g with required := t }) = s at h hn
    refine keepG_withVal h fun t => ?_
    have hk := keepG_setGroup h n (fun g => { g with exclusive := t }) (.ok ())
    refine hk.trans ?_
    replace hn := hk.2 n hn
    replace h := hk.1
    dsimp only at h hn ⊢
    clear hk
    generalize setGroup s n (fun g => { g with exclusive := t }) = s at h hn
    refine keepG_withVal h fun b => ?_
    have h1 : KeepG s (setGroup { s with haveAdvanced := s.haveAdvanced || b } n (fun g => { g with advanced := b }), .ok ()) :=
      keepG_setGroup (s := { s with haveAdvanced := s.haveAdvanced || b }) h n _ _
    refine h1.trans ?_
    refine keepG_each (fun s => n ∈ s.groups.map (·.1)) (fun s t h1 h2 => h2 n h1) (fun s x h hn => ?_) _ h1.1 (h1.2 n hn)
    unfold mergeMember
    exact keepG_withVal h fun kp => keepG_withVal h fun id => keepG_addMember h hn id _

theorem Setter.run_groups (p : Nat) (c : Config) (f : Setter) : (f.run p c).1.groups = c.groups := by
  cases f with
  | action a => simp only [Setter.run]; split <;> rfl
  | actionName a => simp only [Setter.run]; split <;> rfl
  | type t => simp only [Setter.run]; split <;> rfl
  | typeName t => simp only [Setter.run]; split <;> rfl
  | minimum v => simp only [Setter.run, setLimit]; split <;> rfl
  | maximum v => simp only [Setter.run, setLimit]; split <;> rfl
  | addChoice v =>
    simp only [Setter.run, withChoice]
    split
    · rfl
    · dsimp only; split <;> rfl
    · rfl
    · rfl
  | _ => rfl

theorem keepG_step (h : Grouped s) (c : PCall) : KeepG s (c.step w s) := by
  cases c with
  | addOption k sh l hp a => exact keepG_onReg h (addOption_loose _ _ _ _ _ _) fun s id h => keepG_refl h _
  | addArgument k hp => exact keepG_onReg h (addArgument_loose _ _ _ _) fun s id h => keepG_refl h _
  | set id f =>
    show KeepG s (setEntry w.p s id f)
    unfold setEntry
    split
    · exact keepG_refl h _
    · rename_i o ho
      have : Grouped (setCfg s id fun _ => (f.run w.p o.cfg).1) := by
        intro k o' ho' n hn
        obtain ⟨x, hx, e⟩ := List.mem_map.1 (show (k, o') ∈ s.reg.optionMap.map _ from ho')
        obtain ⟨k', x⟩ := x
        cases e
        split at hn
        · rw [show _ = o.cfg.groups from f.run_groups w.p o.cfg] at hn
          exact h id o (find_mem ho) n hn
        · exact h k x hx n hn
      dsimp only
      cases f <;> exact ⟨this, fun _ h => h⟩
  | joinGroup id n =>
    show KeepG s (match s.entry id with | none => _ | some _ => _)
    split
    · exact keepG_refl h _
    · obtain ⟨h0, hn0⟩ := h.getGroup n
      refine KeepG.trans (e := (getGroup s n, .ok ())) ⟨h0, fun m hm => (keys_of_insert s.groups n _).2 m hm⟩ ?_
      exact keepG_addMember h0 hn0 id _
  | group n => exact ⟨(h.getGroup n).1, fun m hm => (keys_of_insert s.groups n _).2 m hm⟩
  | groupTitle n t => exact keepG_setGroup h _ _ _
  | groupDescription n t => exact keepG_setGroup h _ _ _
  | groupExclusive n t => exact keepG_setGroup h _ _ _
  | groupRequired n t => exact keepG_setGroup h _ _ _
  | groupAdvanced n t => exact keepG_setGroup (s := { s with haveAdvanced := true }) h _ _ _
  | groupAdd n k =>
    show KeepG s (match find s.groups n with | none => _ | some _ => _)
    split
    · exact keepG_refl h _
    · rename_i g hg
      exact keepG_withVal h fun id => keepG_addMember h (List.mem_map.2 ⟨_, find_mem hg, rfl⟩) id _
  | merge d =>
    show KeepG s (mergeDescription w s d)
    unfold mergeDescription
    refine keepG_next (keepG_each (fun _ => True) (fun _ _ _ _ => trivial) (fun s x h _ => keepG_mergeOption h x) _ h trivial) fun h => ?_
    refine keepG_next (keepG_each (fun _ => True) (fun _ _ _ _ => trivial) (fun s x h _ => keepG_mergeGroup h x) _ h trivial) fun h => ?_
    exact keepG_each (fun _ => True) (fun _ _ _ _ => trivial) (fun s x h _ => keepG_mergeArgument h x) _ h trivial
  | conflictResolution b => exact ⟨h, fun _ h => h⟩
  | addHelp => exact ⟨h, fun _ h => h⟩
  | setTitle t => exact ⟨h, fun _ h => h⟩
  | setDescription t => exact ⟨h, fun _ h => h⟩
  | setEpilog t => exact ⟨h, fun _ h => h⟩

theorem build_grouped : ∀ (cs : List PCall) {P Q : Parser}, Grouped P.st → build w P cs = some Q → Grouped Q.st
  | [], P, Q, h, hb => by cases hb; exact h
  | c :: cs, P, Q, h, hb => by
    have hk := (keepG_step (w := w) h c).1
    unfold build at hb
    have hst : Grouped (c.run w P).1.st := by cases c <;> first | exact hk | exact h
    split at hb
    · cases hb
    · exact build_grouped cs hst hb

theorem Built.grouped {P : Parser} (h : Built w P) : Grouped P.st := by
  obtain ⟨t, b, cs, _, hb⟩ := h
  exact build_grouped cs (P := newParser t b) nofun hb

/-! ## Entries -/

theorem entriesOf_ok {is : List Int32} (h : ∀ i ∈ is, ∃ o, s.entry i = some o) : ∃ os, entriesOf s is = .ok os ∧ is.map s.entry = os.map some := by
  induction is with
  | nil => exact ⟨[], rfl, rfl⟩
  | cons i is ih =>
    obtain ⟨o, ho⟩ := h i List.mem_cons_self
    obtain ⟨os, h1, h2⟩ := ih fun j hj => h j (List.mem_cons_of_mem _ hj)
    refine ⟨o :: os, ?_, ?_⟩
    · unfold entriesOf; rw [ho, h1]; rfl
    · simp [ho, h2]

theorem entriesOf_unique {is : List Int32} {os : List Opt} (h : is.map s.entry = os.map some) : entriesOf s is = .ok os := by
  induction is generalizing os with
  | nil => cases os with
    | nil => rfl
    | cons _ _ => cases h
  | cons i is ih => cases os with
    | nil => cases h
    | cons o os =>
      simp only [List.map_cons, List.cons.injEq] at h
      unfold entriesOf
      rw [h.1, ih h.2]
      rfl

/-! ## Every entry once -/

theorem printedEntries_append (a b : List Piece) : printedEntries (a ++ b) = printedEntries a ++ printedEntries b := List.filterMap_append

theorem printedEntries_entry (os : List Opt) : printedEntries (os.map .entry) = os := by
  induction os with
  | nil => rfl
  | cons o os ih => unfold printedEntries at *; simp only [List.map_cons, List.filterMap_cons, ih]

theorem printedEntries_usage (os : List Opt) : printedEntries (os.map .usage) = [] := by
  induction os with
  | nil => rfl
  | cons o os ih => unfold printedEntries at *; simp only [List.map_cons, List.filterMap_cons, ih]

/-- The options shown under a group. -/
def shownUnder (s : St) (adv : Bool) (os : List Opt) (e : Bytes × Group) : List Opt :=
  os.filter fun o => under s e.1 o && (adv || (!o.cfg.advanced && !e.2.advanced))

theorem printed_groupPieces (adv : Bool) (os : List Opt) (e : Bytes × Group) : printedEntries (groupPieces s adv os e) = shownUnder s adv os e := by
  unfold groupPieces shownUnder
  by_cases h1 : (os.filter (under s e.1)).isEmpty = true
  · rw [if_pos (by simp [h1])]
    rw [List.isEmpty_iff, List.filter_eq_nil_iff] at h1
    symm
    rw [show printedEntries [] = [] from rfl, List.filter_eq_nil_iff]
    intro o ho hu
    simp only [Bool.and_eq_true] at hu
    exact h1 o ho hu.1
  · by_cases h2 : (e.2.advanced && !adv) = true
    · rw [if_pos (by simp [h2])]
      symm
      rw [show printedEntries [] = [] from rfl, List.filter_eq_nil_iff]
      intro o ho hu
      cases adv <;> simp_all
    · rw [if_neg (by simp only [Bool.or_eq_true, not_or]; exact ⟨h1, h2⟩)]
      unfold printedEntries
      rw [List.filterMap_cons]
      change printedEntries (entriesIf adv _) = _
      unfold entriesIf
      rw [printedEntries_entry, List.filter_filter]
      congr 1
      funext o
      cases adv <;> cases h3 : e.2.advanced <;> cases under s e.1 o <;> simp_all

theorem shown_perm (hs : AMap.Sorted s.groups) (adv : Bool) (os : List Opt) (h : ∀ o ∈ os, ∀ n ∈ o.cfg.groups, n ∈ s.groups.map (·.1)) :
    (os.filter (fun o => loose s o && (adv || !o.cfg.advanced)) ++ s.groups.flatMap (shownUnder s adv os)).Perm (os.filter (visible s adv)) := by
  induction os with
  | nil =>
    have : s.groups.flatMap (shownUnder s adv []) = [] := by
      rw [List.flatMap_eq_nil_iff]; intro e _; rfl
    rw [this]; exact .refl _
  | cons o os ih =>
    have ih := ih fun o ho => h o (List.mem_cons_of_mem _ ho)
    rcases heading_cases (h o List.mem_cons_self) with ⟨_, e2, e3⟩ | ⟨n, g, _, e2, e3, e4⟩
    · have hg : s.groups.flatMap (shownUnder s adv (o :: os)) = s.groups.flatMap (shownUnder s adv os) := by
        congr 1; funext e; unfold shownUnder
        rw [List.filter_cons_of_neg (by simp [e3])]
      have hv : visible s adv o = (adv || !o.cfg.advanced) := by
        unfold visible
        have : (s.groups.all fun e => !(under s e.1 o && e.2.advanced)) = true := by
          rw [List.all_eq_true]; intro e _; rw [e3]; rfl
        rw [this, Bool.and_true]
      rw [hg, List.filter_cons, List.filter_cons, hv, e2, Bool.true_and]
      split
      · exact ih.cons o
      · exact ih
    · have hl : (o :: os).filter (fun o => loose s o && (adv || !o.cfg.advanced)) = os.filter (fun o => loose s o && (adv || !o.cfg.advanced)) :=
        List.filter_cons_of_neg (by simp [e2])
      have hv : visible s adv o = (adv || (!o.cfg.advanced && !g.advanced)) := by
        unfold visible
        congr 2
        have hm := find_mem e3
        cases hga : g.advanced with
        | false =>
          rw [Bool.not_false, List.all_eq_true]
          intro e he
          rw [e4]
          by_cases hn : e.1 = n
          · have : e.2 = g := by
              have h1 := find_get s.groups n
              rw [e3] at h1
              have h2 := AMap.get_of_mem hs (k := e.1) (v := e.2) he
              rw [hn, ← h1] at h2
              exact (Option.some.inj h2).symm
            rw [this, hga]; simp
          · rw [decide_eq_false hn]; rfl
        | true =>
          rw [Bool.not_true, List.all_eq_false]
          exact ⟨(n, g), hm, by simp [e4, hga]⟩
      have hu : ∀ e ∈ s.groups, e.1 ≠ n → shownUnder s adv (o :: os) e = shownUnder s adv os e := by
        intro e _ hne
        unfold shownUnder
        rw [List.filter_cons_of_neg (by simp [e4, hne])]
      have key : ∀ gs : List (Bytes × Group), AMap.Sorted gs → (∀ e ∈ gs, e ∈ s.groups) → find gs n = some g →
          (gs.flatMap (shownUnder s adv (o :: os))).Perm ((if (adv || (!o.cfg.advanced && !g.advanced)) = true then [o] else []) ++ gs.flatMap (shownUnder s adv os)) := by
        intro gs
        induction gs with
        | nil => exact fun _ _ h => by cases h
        | cons e gs ihg =>
          obtain ⟨a, x⟩ := e
          intro hsg hsub hf
          unfold find at hf
          rw [List.flatMap_cons, List.flatMap_cons]
          by_cases ea : a = n
          · rw [if_pos ea] at hf
            cases hf
            subst ea
            have hrest : gs.flatMap (shownUnder s adv (o :: os)) = gs.flatMap (shownUnder s adv os) := by
              have hc : ∀ e ∈ gs, shownUnder s adv (o :: os) e = shownUnder s adv os e := fun e he =>
                hu e (hsub e (List.mem_cons_of_mem _ he)) (fun hn => above_notMem hsg.1 (List.mem_map.2 ⟨e, he, hn⟩))
              rw [List.flatMap_def, List.flatMap_def, List.map_congr_left hc]
            rw [hrest]
            have : shownUnder s adv (o :: os) (a, g) = (if (adv || (!o.cfg.advanced && !g.advanced)) = true then [o] else []) ++ shownUnder s adv os (a, g) := by
              unfold shownUnder
              rw [List.filter_cons]
              simp only [e4, decide_true, Bool.true_and]
              split <;> simp
            rw [this, List.append_assoc]
          · rw [if_neg ea] at hf
            rw [hu (a, x) (hsub _ List.mem_cons_self) ea]
            have h1 := ihg hsg.2 (fun e he => hsub e (List.mem_cons_of_mem _ he)) hf
            refine (h1.append_left _).trans ?_
            rw [← List.append_assoc, ← List.append_assoc]
            exact List.perm_append_comm.append_right _
      rw [hl, List.filter_cons, hv]
      have h1 := key s.groups hs (fun _ h => h) e3
      refine (h1.append_left _).trans ?_
      split
      · exact List.perm_middle.trans (ih.cons o)
      · exact ih

theorem printed_layout (P : Parser) (adv : Bool) (as_ os : List Opt) :
    printedEntries (layout P adv as_ os) =
      as_ ++ (os.filter (fun o => loose P.st o && (adv || !o.cfg.advanced)) ++ P.st.groups.flatMap (shownUnder P.st adv os)) := by
  have hg : ∀ gs : List (Bytes × Group), printedEntries (gs.flatMap (groupPieces P.st adv os)) = gs.flatMap (shownUnder P.st adv os) := by
    intro gs
    induction gs with
    | nil => rfl
    | cons e gs ih => rw [List.flatMap_cons, List.flatMap_cons, printedEntries_append, ih, printed_groupPieces]
  have ht : ∀ t, printedEntries [.text t] = [] := fun _ => rfl
  unfold layout
  simp only [printedEntries_append, ht, printedEntries_entry, printedEntries_usage, hg, List.nil_append, List.append_nil]
  unfold entriesIf
  rw [printedEntries_entry, List.filter_filter, List.append_assoc]
  congr 3
  funext o
  rw [Bool.and_comm]

end Verif.Args
