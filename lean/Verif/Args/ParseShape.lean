import Verif.Args.ParseLemmas
import Verif.Val.PathProps
/-!
# What parsing leaves as it is, and the result formed from the values
-/

namespace Verif.Args
open Verif JsonDrv Schema

/-- What one action of an entry does to the entry's value. -/
inductive NewResult (w : World) (o : Opt) (arg : Val) : Val → Prop
  | store : o.cfg.action = .store → checkRequirements w o.cfg arg = .ok () → NewResult w o arg arg
  | const {v} : o.cfg.action = .storeConst → optGet o.cfg kConst = some v → NewResult w o arg v
  | flag (b : Bool) : o.cfg.action = .storeTrue ∨ o.cfg.action = .storeFalse → NewResult w o arg (.bool b)
  | append (xs : List Val) : o.cfg.action = .append → NewResult w o arg (appendAll w o.cfg o.result xs).1
  | count {i r} : o.cfg.action = .count → arith w.fl .add o.result (.int i) = .ok r → NewResult w o arg r

theorem store_cases {s t : St} {id : Int32} {v : Out Val} {x : Out Unit} (h : store s id v = some (t, x)) :
    t = s ∨ ∃ r, v = .ok r ∧ t = setResult s id r := by
  cases v with
  | ok r => cases h; exact .inr ⟨r, rfl, rfl⟩
  | throw e => cases h; exact .inl rfl
  | ub => cases h; exact .inl rfl

theorem handleOpt_cases {w h s id o arg t x} (hc : isConfig o.cfg.action = false) (e : handleOpt w h s id o arg = some (t, x)) :
    (∃ r, NewResult w o arg r ∧ t = setResult s id r) ∨ (t.reg = s.reg ∧ t.groups = s.groups) := by
  unfold handleOpt at e
  cases ha : o.cfg.action <;> rw [ha] at e hc <;> dsimp only at e
  case store =>
    rcases store_cases e with rfl | ⟨r, h1, h2⟩
    · exact .inr ⟨rfl, rfl⟩
    · cases hk : checkRequirements w o.cfg arg with
      | ok u => rw [hk] at h1; cases h1; exact .inl ⟨_, .store ha hk, h2⟩
      | throw e => rw [hk] at h1; cases h1
      | ub => rw [hk] at h1; cases h1
  case storeConst =>
    rcases store_cases e with rfl | ⟨r, h1, h2⟩
    · exact .inr ⟨rfl, rfl⟩
    · cases hk : optGet o.cfg kConst with
      | some v => rw [hk] at h1; cases h1; exact .inl ⟨_, .const ha hk, h2⟩
      | none => rw [hk] at h1; cases h1
  case storeTrue =>
    rcases store_cases e with rfl | ⟨r, h1, h2⟩
    · exact .inr ⟨rfl, rfl⟩
    · cases h1
      refine .inl ⟨_, ?_, h2⟩
      split
      · exact .flag _ (.inl ha)
      · exact .flag _ (.inl ha)
  case storeFalse =>
    rcases store_cases e with rfl | ⟨r, h1, h2⟩
    · exact .inr ⟨rfl, rfl⟩
    · cases h1
      refine .inl ⟨_, ?_, h2⟩
      split
      · exact .flag _ (.inr ha)
      · exact .flag _ (.inr ha)
  case append =>
    cases e
    exact .inl ⟨_, .append _ ha, rfl⟩
  case count =>
    rcases store_cases e with rfl | ⟨r, h1, h2⟩
    · exact .inr ⟨rfl, rfl⟩
    · obtain ⟨i, _, h3⟩ := Out.bind_eq_ok.1 h1
      exact .inl ⟨r, .count ha h3, h2⟩
  all_goals first
    | (cases hc; done)
    | (cases e; exact .inr ⟨rfl, rfl⟩)

/-! ## Shape -/

/-- An entry but for its value. -/
def Opt.strip (o : Opt) : Opt := { o with result := .null }

/-- Two states have the same entries up to values, and the same arguments and groups. -/
structure Shape (s t : St) : Prop where
  groups : t.groups = s.groups
  arguments : t.reg.arguments = s.reg.arguments
  paths : t.reg.paths = s.reg.paths
  entries : t.reg.optionMap.map (fun x => (x.1, x.2.strip)) = s.reg.optionMap.map (fun x => (x.1, x.2.strip))

theorem Shape.refl (s : St) : Shape s s := ⟨rfl, rfl, rfl, rfl⟩
theorem Shape.trans {a b c : St} (h : Shape a b) (h' : Shape b c) : Shape a c :=
  ⟨h'.groups.trans h.groups, h'.arguments.trans h.arguments, h'.paths.trans h.paths, h'.entries.trans h.entries⟩

theorem shape_setResult (s : St) (id : Int32) (v : Val) : Shape s (setResult s id v) := by
  refine ⟨rfl, rfl, rfl, ?_⟩
  simp only [setResult, List.map_map]
  apply List.map_congr_left
  intro x _
  simp only [Function.comp_apply]
  split <;> rfl

theorem shape_step (w : World) : Step w Shape where
  refl := Shape.refl
  trans := Shape.trans
  act := by
    intro h s id o arg t x _ hc e
    rcases handleOpt_cases hc e with ⟨r, _, rfl⟩ | ⟨h1, h2⟩
    · exact shape_setResult ..
    · exact ⟨h2, by rw [h1], by rw [h1], by rw [h1]⟩

theorem find_strip (m : List (Int32 × Opt)) (k : Int32) :
    find (m.map fun x => (x.1, x.2.strip)) k = (find m k).map Opt.strip := by
  induction m with
  | nil => rfl
  | cons a m ih =>
    simp only [List.map_cons, find]
    split <;> simp [ih]

theorem Shape.strip {s t : St} (h : Shape s t) (k : Int32) : (t.entry k).map Opt.strip = (s.entry k).map Opt.strip := by
  unfold St.entry
  rw [← find_strip, ← find_strip, h.entries]

theorem Shape.keys {s t : St} (h : Shape s t) : t.reg.optionMap.map (·.1) = s.reg.optionMap.map (·.1) := by
  have := congrArg (List.map (·.1)) h.entries
  simpa [List.map_map, Function.comp_def] using this

theorem Shape.forward {s t : St} (h : Shape s t) {k : Int32} {o : Opt} (ho : s.entry k = some o) :
    ∃ r, t.entry k = some { o with result := r } := by
  have := h.strip k
  rw [ho] at this
  cases ht : t.entry k with
  | none => rw [ht] at this; cases this
  | some o' =>
    rw [ht] at this
    simp only [Option.map_some, Option.some.injEq] at this
    refine ⟨o'.result, ?_⟩
    obtain ⟨_, _, _, _, _, _⟩ := o
    obtain ⟨_, _, _, _, _, _⟩ := o'
    simp only [Opt.strip, Opt.mk.injEq] at this
    obtain ⟨rfl, rfl, rfl, rfl, rfl, _⟩ := this
    rfl

theorem Shape.back {s t : St} (h : Shape s t) {k : Int32} {o : Opt} (ho : t.entry k = some o) :
    ∃ r, s.entry k = some { o with result := r } :=
  Shape.forward ⟨h.groups.symm, h.arguments.symm, h.paths.symm, h.entries.symm⟩ ho

theorem initOne_keeps {w R} (hR : Step w R) (h0 : ∀ {s id o}, s.entry id = some o → o.cfg.action = .count → R s (setResult s id (.uint 0)))
    {fuel s id t x} (e : initOne w fuel s id = some (t, x)) : R s t := by
  unfold initOne at e
  split at e
  · exact id_keeps hR e
  · next o ho =>
    refine hR.trans ?_ (fromEnv_keeps hR e)
    split
    · next ha => exact h0 ho ha
    · exact hR.refl s

theorem finalizeOpt_cases {w s id t x} (e : finalizeOpt w s id = some (t, x)) :
    (s.entry id = none ∧ t = s ∧ x = .ok ()) ∨ ∃ o, s.entry id = some o ∧ t = setResult s id (withDefault s o) ∧ x = checkResult w o.cfg (withDefault s o) := by
  unfold finalizeOpt at e
  split at e
  · next h => cases e; exact .inl ⟨h, rfl, rfl⟩
  · next o ho => cases e; exact .inr ⟨o, ho, rfl, rfl⟩

theorem Stages.shapes {w fuel s es rest t v s0 s1 s2 s3} (h : Stages w fuel s es rest t v s0 s1 s2 s3) :
    Shape s0 s1 ∧ Shape s1 s2 ∧ Shape s2 s3 ∧ Shape s3 t := by
  refine ⟨?_, events_keeps (shape_step w) h.opts, takeArgs_keeps (shape_step w) h.args, ?_⟩
  · exact forEach_keeps (shape_step w) (fun _ e => initOne_keeps (shape_step w) (fun _ _ => shape_setResult ..) e) h.init
  · refine forEach_keeps (shape_step w) (fun _ e => ?_) h.final
    rcases finalizeOpt_cases e with ⟨_, rfl, _⟩ | ⟨o, _, rfl, _⟩
    · exact Shape.refl _
    · exact shape_setResult ..

/-! ## States before a first parse -/

/-- Registrations in order, and no entry has a value yet. -/
structure Ready (s : Reg) : Prop where
  inv : Inv s
  nodup : (s.optionMap.map (·.1)).Nodup
  null : ∀ k o, find s.optionMap k = some o → o.result = .null
  nonempty : ∀ k o, find s.optionMap k = some o → o.path ≠ []

theorem newOpt_path {id path short long help action o} (h : newOpt id path short long help action = .ok o) : o.path ≠ [] := by
  unfold newOpt at h
  dsimp only at h
  intro e
  split at h
  · cases h
  · next e1 => cases h; dsimp only at e; subst e; cases e1
  · next e1 => cases h; dsimp only at e; subst e; cases e1

theorem find_none_keys {κ α : Type} [DecidableEq κ] {m : List (κ × α)} {k : κ} : find m k = none ↔ k ∉ m.map (·.1) := by
  induction m with
  | nil => simp [find]
  | cons a m ih =>
    obtain ⟨a, b⟩ := a
    simp only [find, List.map_cons, List.mem_cons, not_or]
    by_cases e : a = k
    · simp [e]
    · simp only [e, if_false, ih]
      exact ⟨fun h => ⟨fun h' => e h'.symm, h⟩, fun h => h.2⟩

theorem keys_insert {κ α : Type} [DecidableEq κ] {lt : κ → κ → Bool} {m : List (κ × α)} {k : κ} {v : α} {a : κ}
    (h : a ∈ (insert lt m k v).map (·.1)) : a = k ∨ a ∈ m.map (·.1) := by
  induction m with
  | nil => simpa [insert] using h
  | cons x m ih =>
    obtain ⟨x, y⟩ := x
    simp only [insert] at h
    split at h
    · exact .inr h
    · split at h
      · simpa using h
      · simp only [List.map_cons, List.mem_cons] at h ⊢
        rcases h with h | h
        · exact .inr (.inl h)
        · rcases ih h with h | h
          · exact .inl h
          · exact .inr (.inr h)

theorem nodup_insert {κ α : Type} [DecidableEq κ] {lt : κ → κ → Bool} {m : List (κ × α)} {k : κ} {v : α}
    (hn : (m.map (·.1)).Nodup) (h : find m k = none) : ((insert lt m k v).map (·.1)).Nodup := by
  induction m with
  | nil => simp [insert]
  | cons x m ih =>
    have hk := find_none_keys.1 h
    obtain ⟨x, y⟩ := x
    simp only [List.map_cons, List.mem_cons, not_or] at hk
    simp only [List.map_cons, List.nodup_cons] at hn
    simp only [insert]
    rw [if_neg (fun e => hk.1 e.symm)]
    split
    · simp only [List.map_cons, List.nodup_cons, List.mem_cons, not_or]
      exact ⟨hk, hn⟩
    · simp only [List.map_cons, List.nodup_cons]
      refine ⟨fun h1 => ?_, ih hn.2 (find_none_keys.2 hk.2)⟩
      rcases keys_insert h1 with h1 | h1
      · exact hk.1 h1.symm
      · exact hn.1 h1

theorem Ready.same {s t : Reg} (hs : Ready s) (h : SameEntries s t) (hi : Inv t) : Ready t :=
  ⟨hi, by rw [h.2.2.1]; exact hs.nodup, by rw [h.2.2.1]; exact hs.null, by rw [h.2.2.1]; exact hs.nonempty⟩

theorem short_le {short sh : Int32} (hc : short ≤ 255) (h : sh = short ∨ sh = 0) : sh.toInt ≤ 256 := by
  have := Int32.le_iff_toInt_le.1 hc
  have h255 : (255 : Int32).toInt = 255 := by decide
  rcases h with rfl | rfl
  · omega
  · decide

/-- What `AddOption` does to the table of entries. -/
theorem addOption_ready {s : Reg} (hs : Ready s) {keypath short long help action t r} (hc : short ≤ 255)
    (h : addOption s keypath short long help action = (t, r)) (hr : r ≠ .ub) :
    Ready t ∧ t.arguments = s.arguments ∧ (t.optionMap = s.optionMap ∨ ∃ id o, find s.optionMap id = none ∧
      newOpt id o.path o.short long help action = .ok o ∧ t.optionMap = insert ltInt s.optionMap id o) := by
  have hi := addOption_inv hs.inv hc h hr
  obtain ⟨t', r', e, _, h1, h2⟩ := addOption_cases s keypath short long help action
  rw [h] at e; cases e
  cases r with
  | ub => exact absurd rfl hr
  | throw e => exact ⟨hs.same (h1 e rfl).1 hi, (h1 e rfl).1.2.1, .inl (h1 e rfl).1.2.2.1⟩
  | ok id =>
    obtain ⟨t0, path, o, sh, _, h4, h5, h6, rfl⟩ := h2 id rfl
    have hu := h4.unused hs.inv (short_le hc (h5.imp_right And.left))
    obtain ⟨e1, e2, e3, e4, _, e6⟩ := newOpt_fields h6
    have e7 := h4.same.2.2.1
    have ht : (enterOption t0 o).optionMap = insert ltInt s.optionMap id o := by simp only [enterOption, e7, e1]
    refine ⟨⟨hi, ?_, ?_, ?_⟩, h4.same.2.1, .inr ⟨id, o, hu, by rw [e2, e3]; exact h6, ht⟩⟩
    · rw [ht]; exact nodup_insert hs.nodup hu
    · intro k o' hk
      rw [ht, find_insert _ _ hu] at hk
      split at hk
      · cases hk; exact e6
      · exact hs.null k o' hk
    · intro k o' hk
      rw [ht, find_insert _ _ hu] at hk
      split at hk
      · cases hk; exact (newOpt_path h6 : o.path ≠ [])
      · exact hs.nonempty k o' hk

theorem addArgument_ready {s : Reg} (hs : Ready s) {keypath help action t r}
    (h : addArgument s keypath help action = (t, r)) (hr : r ≠ .ub) : Ready t := by
  have hi := addArgument_inv hs.inv h hr
  obtain ⟨t', r', e, _, h1, h2⟩ := addArgument_cases s keypath help action
  rw [h] at e; cases e
  cases r with
  | ub => exact absurd rfl hr
  | throw e => exact hs.same (h1 e rfl).1 hi
  | ok id =>
    obtain ⟨t0, path, o, _, h4, h6, rfl⟩ := h2 id rfl
    have hu := h4.unused hs.inv (by decide)
    obtain ⟨e1, e2, e3, e4, _, e6⟩ := newOpt_fields h6
    have e7 := h4.same.2.2.1
    have ht : (enterArgument t0 o).optionMap = insert ltInt s.optionMap id { o with cfg := argDefaults o.cfg } := by
      simp only [enterArgument, e7, e1]
    refine ⟨hi, ?_, ?_, ?_⟩
    · rw [ht]; exact nodup_insert hs.nodup hu
    · intro k o' hk
      rw [ht, find_insert _ _ hu] at hk
      split at hk
      · cases hk; exact e6
      · exact hs.null k o' hk
    · intro k o' hk
      rw [ht, find_insert _ _ hu] at hk
      split at hk
      · cases hk; exact (newOpt_path h6 : o.path ≠ [])
      · exact hs.nonempty k o' hk

theorem update_keys (m : List (Int32 × Opt)) (id : Int32) (f : Config → Config) : (update m id f).map (·.1) = m.map (·.1) := by
  simp [update, List.map_map, Function.comp_def]

theorem calls_ready {s t : Reg} (hs : Ready s) (cs : List Call) (hc : ∀ c ∈ cs, c.charShort) (h : calls s cs = some t) : Ready t := by
  induction cs generalizing s with
  | nil => cases h; exact hs
  | cons c cs ih =>
    unfold calls at h
    have hne : (call s c).2 ≠ .ub := fun e => by rw [e] at h; cases h
    have h' : calls (call s c).1 cs = some t := by
      revert h hne
      cases (call s c).2 <;> simp
    refine ih ?_ (fun c hc' => hc c (by simp [hc'])) h'
    cases c with
    | conflictResolution on =>
      have := call_inv hs.inv (.conflictResolution on) trivial hne
      exact hs.same ⟨rfl, rfl, rfl, rfl, rfl, rfl⟩ this
    | addOption k sh l hp a =>
      refine (addOption_ready hs (hc (.addOption k sh l hp a) (by simp)) (t := _) (r := (addOption s k sh l hp a).2) rfl ?_).1
      intro e; apply hne; simp [call, e]
    | addArgument k hp a =>
      refine addArgument_ready hs (t := _) (r := (addArgument s k hp a).2) rfl ?_
      intro e; apply hne; simp [call, e]
    | configure id f =>
      refine ⟨hs.inv.update id f, ?_, ?_, ?_⟩
      · simp only [call, update_keys]; exact hs.nodup
      · intro k o hk
        simp only [call, find_update] at hk
        cases e : find s.optionMap k with
        | none => rw [e] at hk; cases hk
        | some o' =>
          rw [e] at hk
          simp only [Option.map_some, Option.some.injEq] at hk
          have := hs.null k o' e
          rw [← hk]
          split <;> exact this
      · intro k o hk
        simp only [call, find_update] at hk
        cases e : find s.optionMap k with
        | none => rw [e] at hk; cases hk
        | some o' =>
          rw [e] at hk
          simp only [Option.map_some, Option.some.injEq] at hk
          have := hs.nonempty k o' e
          rw [← hk]
          split <;> exact this

/-- Every way of setting an `ArgParse` up gives such a state. -/
theorem reached_ready {cs : List Call} {r : Reg} (h : Reached cs r) : Ready r :=
  calls_ready ⟨inv_init, by simp [Reg.init], by simp [Reg.init, find], by simp [Reg.init, find]⟩ cs h.1 h.2

/-! ## Adding the help options -/

/-- The help options are added to the entries; nothing else changes. -/
structure WithHelp (s t : St) : Prop where
  ready : Ready t.reg
  groups : t.groups = s.groups
  arguments : t.reg.arguments = s.reg.arguments
  kept : ∀ k o, s.entry k = some o → t.entry k = some o
  added : ∀ k o, t.entry k = some o → s.entry k = some o ∨
    (s.entry k = none ∧ (o.cfg.action = .help ∨ o.cfg.action = .advHelp) ∧ o.cfg.required = false ∧ o.cfg.groups = [])

theorem newOpt_cfg {id path short long help action o} (h : newOpt id path short long help action = .ok o) :
    o.cfg.action = action ∧ o.cfg.required = false ∧ o.cfg.groups = [] := by
  unfold newOpt at h
  dsimp only at h
  split at h <;> cases h <;> exact ⟨rfl, rfl, rfl⟩

theorem withHelp_add {s t : St} (h : WithHelp s t) {keypath short long help action r} (hc : short ≤ 255)
    (ha : action = .help ∨ action = .advHelp) (e : addOption t.reg keypath short long help action = r) (hr : r.2 ≠ .ub) :
    WithHelp s { t with reg := r.1 } := by
  obtain ⟨h1, h2, h3⟩ := addOption_ready h.ready hc (t := r.1) (r := r.2) (by rw [e]) hr
  rcases h3 with h3 | ⟨id, o, h4, h5, h6⟩
  · exact ⟨h1, h.groups, h2.trans h.arguments, by unfold St.entry; rw [h3]; exact h.kept, by unfold St.entry; rw [h3]; exact h.added⟩
  · refine ⟨h1, h.groups, h2.trans h.arguments, ?_, ?_⟩
    · intro k o' hk
      show find r.1.optionMap k = some o'
      have := h.kept k o' hk
      rw [h6, find_insert _ _ h4, if_neg]
      · exact this
      · rintro rfl; unfold St.entry at this; rw [h4] at this; cases this
    · intro k o' hk
      have hk : find r.1.optionMap k = some o' := hk
      rw [h6, find_insert _ _ h4] at hk
      split at hk
      · next e =>
        cases hk; subst e
        obtain ⟨e1, e2, e3⟩ := newOpt_cfg h5
        refine .inr ⟨?_, by rw [e1]; exact ha, e2, e3⟩
        cases hs : s.entry id with
        | none => rfl
        | some o'' => have := h.kept _ _ hs; unfold St.entry at this; rw [h4] at this; cases this
      · exact h.added k o' hk

theorem WithHelp.resolve {s t : St} (h : WithHelp s t) (b : Bool) : WithHelp s { t with reg := { t.reg with resolve := b } } :=
  ⟨h.ready.same ⟨rfl, rfl, rfl, rfl, rfl, rfl⟩ (SameEntries.inv (s := t.reg) ⟨rfl, rfl, rfl, rfl, rfl, rfl⟩ h.ready.inv (Int.le_refl _)),
    h.groups, h.arguments, h.kept, h.added⟩

theorem addHelp_withHelp {s t : St} (hs : Ready s.reg) (h : addHelpOptions s = (t, .ok ())) : WithHelp s t := by
  have h0 : WithHelp s s := ⟨hs, rfl, rfl, fun _ _ h => h, fun _ _ h => .inl h⟩
  unfold addHelpOptions at h
  split at h
  · dsimp only at h
    have h1 := withHelp_add (h0.resolve true) (keypath := helpPath) (short := 104) (long := helpLong) (help := helpSays)
      (action := .help) (by decide) (.inl rfl) rfl
    split at h
    · cases h
    · next e he =>
      cases h
      exact (h1 (by rw [he]; nofun)).resolve _
    · next id he =>
      have h2 := h1 (by rw [he]; nofun)
      split at h
      · have h3 := withHelp_add h2 (keypath := advPath) (short := 0) (long := advLong) (help := advSays)
          (action := .advHelp) (by decide) (.inr rfl) rfl
        split at h
        · cases h
        · next he2 =>
          cases h
          exact (h3 he2).resolve _
      · cases h
        exact h2.resolve _
  · cases h; exact h0

/-! ## The result -/

/-- The value an entry contributes to the result. -/
def contributes (o : Opt) : Prop := hasResult o.cfg.action = true ∧ o.result ≠ .null

theorem formResult_cons (k : Int32) (o : Opt) (m : List (Int32 × Opt)) (ret : Val) :
    (contributes o → formResult ((k, o) :: m) ret = match setPath ret o.path o.result with
      | (ret', none) => formResult m ret'
      | (_, some e) => .throw e) ∧
    (¬ contributes o → formResult ((k, o) :: m) ret = formResult m ret) := by
  constructor
  · rintro ⟨h1, h2⟩
    rw [formResult]
    cases hr : o.result with
    | null => exact absurd hr h2
    | _ => simp only [h1, if_true]; rcases setPath ret o.path _ with ⟨_, _ | _⟩ <;> rfl
  · intro h
    rw [formResult]
    cases hr : o.result with
    | null => rfl
    | _ => 
      have : hasResult o.cfg.action = false := by
        cases hh : hasResult o.cfg.action with
        | false => rfl
        | true => exact absurd ⟨hh, by rw [hr]; nofun⟩ h
      simp [this]

/-- Reading a path that goes another way than all entries: as before, or a null that fills a list up. -/
theorem formResult_frame {m : List (Int32 × Opt)} {ret v : Val} (h : formResult m ret = .ok v) {q : VPath}
    (hd : ∀ x ∈ m, contributes x.2 → Diverge x.2.path q) :
    getPath? v q = getPath? ret q ∨ (getPath? ret q = none ∧ getPath? v q = some .null) := by
  induction m generalizing ret with
  | nil => cases h; exact .inl rfl
  | cons x m ih =>
    obtain ⟨k, o⟩ := x
    obtain ⟨h1, h2⟩ := formResult_cons k o m ret
    by_cases hc : contributes o
    · rw [h1 hc] at h
      split at h
      · next ret' hsp =>
        have hf := setPath_frame hsp (hd (k, o) (by simp) hc)
        have hi := ih h (fun x hx => hd x (by simp [hx]))
        rcases hf with hf | ⟨hf1, hf2, _⟩
        · rw [hf] at hi; exact hi
        · rcases hi with hi | ⟨hi, _⟩
          · exact .inr ⟨hf1, hi.trans hf2⟩
          · rw [hf2] at hi; cases hi
      · cases h
    · rw [h2 hc] at h
      exact ih h (fun x hx => hd x (by simp [hx]))

/-- The value of an entry whose path goes another way than all others is in the result. -/
theorem formResult_value {m : List (Int32 × Opt)} {ret v : Val} (h : formResult m ret = .ok v) (hn : (m.map (·.1)).Nodup)
    {k : Int32} {o : Opt} (ho : (k, o) ∈ m) (hc : contributes o)
    (hd : ∀ x ∈ m, x.1 ≠ k → contributes x.2 → Diverge x.2.path o.path) : getPath? v o.path = some o.result := by
  induction m generalizing ret with
  | nil => cases ho
  | cons x m ih =>
    obtain ⟨k', o'⟩ := x
    obtain ⟨h1, h2⟩ := formResult_cons k' o' m ret
    simp only [List.map_cons, List.nodup_cons] at hn
    rcases List.mem_cons.1 ho with e | e
    · cases e
      rw [h1 hc] at h
      split at h
      · next ret' hsp =>
        have hv : getPath? ret' o.path = some o.result := by
          have := setPath_below hsp []
          simpa [getPath?] using this
        rcases formResult_frame h (q := o.path) (fun x hx hcx => hd x (by simp [hx]) (fun e => hn.1 (by
          rw [← e]; exact List.mem_map_of_mem hx)) hcx) with hf | ⟨hf, _⟩
        · rw [hf, hv]
        · rw [hv] at hf; cases hf
      · cases h
    · by_cases hc' : contributes o'
      · rw [h1 hc'] at h
        split at h
        · exact ih h hn.2 e (fun x hx => hd x (by simp [hx]))
        · cases h
      · rw [h2 hc'] at h
        exact ih h hn.2 e (fun x hx => hd x (by simp [hx]))

end Verif.Args
