import Verif.Args.ParseOrder
import Verif.Args.ParseProps
/-!
# Defaults in mutually exclusive groups (C58)

`FinalizeResult` of an entry (src/ArgParse.cc 1608-1646) looks at the members of the mutually exclusive groups of
the entry before it uses a default.  The entries are finalised one after the other, so whether the default of one
is used depends on those finalised before it.  The theorems say what this means for the result of `Parse`.
-/
namespace Verif.Args
open Verif JsonDrv Schema

/-! ## The finalisation of one entry -/

/-- What the finalisation of entries keeps: values that are there, and the absence of values without defaults. -/
structure Finalised (s t : St) : Prop where
  shape : Shape s t
  kept : ∀ m, given s m = true → given t m = true
  new : ∀ m o, s.entry m = some o → optGet o.cfg kDefault = none → given t m = true → given s m = true

theorem Finalised.refl (s : St) : Finalised s s := ⟨Shape.refl s, fun _ h => h, fun _ _ _ _ h => h⟩

theorem Finalised.trans {a b c : St} (h : Finalised a b) (h' : Finalised b c) : Finalised a c := by
  refine ⟨h.shape.trans h'.shape, fun m e => h'.kept m (h.kept m e), fun m o ho hd e => ?_⟩
  obtain ⟨r, hr⟩ := h.shape.forward ho
  exact h.new m o ho hd (h'.new m _ hr hd e)

theorem withDefault_given {s : St} {o : Opt} (h : o.result ≠ .null) : withDefault s o = o.result := by
  rcases withDefault_cases s o with h1 | ⟨h1, _⟩
  · exact h1
  · exact absurd h1 h

theorem given_setResult (s : St) (id : Int32) (v : Val) (m : Int32) :
    given (setResult s id v) m = true ↔ ∃ o, s.entry m = some o ∧ (if m = id then v else o.result) ≠ .null := by
  cases ho : s.entry m with
  | none =>
    have : (setResult s id v).entry m = none := by rw [entry_setResult, ho]; rfl
    unfold given; rw [this]; simp
  | some o =>
    have h := entry_setResult s id v m
    rw [ho] at h
    rw [given_iff (by simpa using h)]
    by_cases e : m = id <;> simp [e]

theorem finalised_step {w : World} {s t : St} {id : Int32} {x : Out Unit} (e : finalizeOpt w s id = some (t, x)) : Finalised s t := by
  rcases finalizeOpt_cases e with ⟨_, rfl, _⟩ | ⟨o, ho, rfl, _⟩
  · exact .refl _
  · refine ⟨shape_setResult .., fun m hm => ?_, fun m om hom hd hm => ?_⟩
    · rw [given_setResult]
      cases hom : s.entry m with
      | none => unfold given at hm; rw [hom] at hm; cases hm
      | some om =>
        have hn := (given_iff hom).1 hm
        refine ⟨om, rfl, ?_⟩
        by_cases em : m = id
        · subst em
          rw [ho] at hom; cases hom
          rw [if_pos rfl, withDefault_given hn]; exact hn
        · rw [if_neg em]; exact hn
    · rw [given_setResult] at hm
      obtain ⟨o', h1, h2⟩ := hm
      rw [hom] at h1; cases h1
      rw [given_iff hom]
      by_cases em : m = id
      · subst em
        rw [ho] at hom; cases hom
        rw [if_pos rfl] at h2
        rcases withDefault_cases s o with h3 | ⟨_, d, h3, _⟩
        · rw [h3] at h2; exact h2
        · rw [hd] at h3; cases h3
      · rw [if_neg em] at h2; exact h2

theorem finalised_loop {w : World} {ids : List Int32} : ∀ {s t : St}, forEach (finalizeOpt w) s ids = some (t, .ok ()) → Finalised s t := by
  induction ids with
  | nil => intro s t h; cases h; exact .refl _
  | cons a ids ih =>
    intro s t h
    rw [forEach] at h
    match hm : finalizeOpt w s a, h with
    | some (s', .ok _), h => exact (finalised_step hm).trans (ih h)
    | some (s', .throw _), h => simp [hm, andThen] at h
    | some (s', .ub), h => simp [hm, andThen] at h
    | none, h => simp [hm, andThen] at h

theorem entry_other {w : World} {k : Int32} {ids : List Int32} (hk : k ∉ ids) :
    ∀ {s t : St}, forEach (finalizeOpt w) s ids = some (t, .ok ()) → t.entry k = s.entry k := by
  induction ids with
  | nil => intro s t h; cases h; rfl
  | cons a ids ih =>
    intro s t h
    rw [forEach] at h
    simp only [List.mem_cons, not_or] at hk
    match hm : finalizeOpt w s a, h with
    | some (s', .ok _), h =>
      rw [ih hk.2 h]
      rcases finalizeOpt_cases hm with ⟨_, rfl, _⟩ | ⟨o, ho, rfl, _⟩
      · rfl
      · rw [entry_setResult]
        cases s.entry k <;> simp [hk.1]
    | some (s', .throw _), h => simp [hm, andThen] at h
    | some (s', .ub), h => simp [hm, andThen] at h
    | none, h => simp [hm, andThen] at h

/-- An entry is finalised once, in a state between the first and the last. -/
theorem final_at {w : World} {k : Int32} {o : Opt} {ids : List Int32} (hn : ids.Nodup) (hk : k ∈ ids) :
    ∀ {s t : St}, forEach (finalizeOpt w) s ids = some (t, .ok ()) → s.entry k = some o →
      ∃ s', Finalised s s' ∧ s'.entry k = some o ∧ Finalised s' t ∧ t.entry k = some { o with result := withDefault s' o } := by
  induction ids with
  | nil => cases hk
  | cons a ids ih =>
    intro s t h ho
    rw [forEach] at h
    simp only [List.nodup_cons] at hn
    match hm : finalizeOpt w s a, h with
    | some (s', .ok _), hrest =>
      have hrest : forEach (finalizeOpt w) s' ids = some (t, .ok ()) := hrest
      clear h
      by_cases e : k = a
      · subst e
        refine ⟨s, .refl _, ho, (finalised_step hm).trans (finalised_loop hrest), ?_⟩
        rw [entry_other hn.1 hrest]
        rcases finalizeOpt_cases hm with ⟨h1, _⟩ | ⟨o', ho', rfl, _⟩
        · rw [ho] at h1; cases h1
        · rw [ho] at ho'; cases ho'
          rw [entry_setResult, ho]; simp
      · have hk' : k ∈ ids := by
          rcases List.mem_cons.1 hk with h1 | h1
          · exact absurd h1 e
          · exact h1
        have he : s'.entry k = some o := by
          rcases finalizeOpt_cases hm with ⟨_, rfl, _⟩ | ⟨o', ho', rfl, _⟩
          · exact ho
          · rw [entry_setResult, ho]; simp [e]
        obtain ⟨s'', h1, h2, h3, h4⟩ := ih hn.2 hk' hrest he
        exact ⟨s'', (finalised_step hm).trans h1, h2, h3, h4⟩
    | some (s', .throw _), h => simp [hm, andThen] at h
    | some (s', .ub), h => simp [hm, andThen] at h
    | none, h => simp [hm, andThen] at h

/-- The finalisation of an entry in a call that returns. -/
theorem stages_final {w : World} {fuel : Nat} {cs : List Call} {s t s0 s1 s2 s3 : St} {es : List Event} {rest : List Text}
    {v : Val} (hs : Reached cs s.reg) (st : Stages w fuel s es rest t v s0 s1 s2 s3) {k : Int32} {o : Opt} (h3 : s3.entry k = some o) :
    ∃ s', Finalised s3 s' ∧ s'.entry k = some o ∧ Finalised s' t ∧ t.entry k = some { o with result := withDefault s' o } := by
  have hh := addHelp_withHelp (reached_ready hs) st.help
  obtain ⟨g1, g2, g3, _⟩ := st.shapes
  have hk3 : (s3.reg.optionMap.map (·.1)).Nodup := by rw [((g1.trans g2).trans g3).keys]; exact hh.ready.nodup
  exact final_at hk3 (entry_key h3) st.final h3

theorem withDefault_allowed {s : St} {o : Opt} {d : Val} (hd : optGet o.cfg kDefault = some d) (hn : d ≠ .null)
    (hr : hasResult o.cfg.action = true) (hc : o.cfg.action ≠ .count) (ha : defaultAllowed s o = true) : withDefault s o ≠ .null := by
  unfold withDefault
  split
  · rw [hd]
    dsimp only
    rw [if_pos ha]
    cases he : o.cfg.action <;> rw [he] at hr hc <;> first
      | (cases hr; done)
      | exact absurd rfl hc
      | exact hn
      | exact fun e => by cases e
  · next h => exact h

/-- An entry that does not count and that nothing mentions has no value before the defaults. -/
theorem unmentioned {w : World} (hp : 64 ≤ w.p) {fuel : Nat} {cs : List Call} {s t s0 s1 s2 s3 : St} {es : List Event} {rest : List Text}
    {v : Val} (hs : Reached cs s.reg) (hn : NoConfig s) (st : Stages w fuel s es rest t v s0 s1 s2 s3)
    {k : Int32} {o : Opt} (ho : s.entry k = some o) (hr : hasResult o.cfg.action = true) (hcount : o.cfg.action ≠ .count)
    (hw : envWords w o.cfg ++ optWords k es ++ argWords (limit w s) k s.reg.arguments rest = []) :
    s3.entry k = some { o with result := .null } := by
  have hh := addHelp_withHelp (reached_ready hs) st.help
  have hc0 := hn.help hh
  obtain ⟨g1, g2, g3, g4⟩ := st.shapes
  have ho0 := hh.kept k o ho
  obtain ⟨_, h1⟩ := init_value hp hh.ready.nodup hc0 st.init ho0 hr
  obtain ⟨r1, h2, h3⟩ := h1 (entry_key ho0) (hh.ready.null k o ho0)
  have hc1 := fun id => g1.nonconfig (hc0 id)
  have hc2 := fun id => g2.nonconfig (hc1 id)
  have h4 := events_follows hp (fun e _ => hc1 e.id) st.opts k
  have h5 := (takeArgs_follows hp (fun id _ => hc2 id) st.args k).1
  obtain ⟨r3, h6, h7⟩ := (h4.trans h5) _ h2 hr (fun ha => absurd ha hcount)
  have harg2 : s2.reg.arguments = s.reg.arguments := by rw [g2.arguments, g1.arguments, hh.arguments]
  rw [harg2, (g1.trans g2).limit w, (argWords_help hs hh k rest).1] at h7
  have h8 := h3.append h7
  rw [← List.append_assoc, hw] at h8
  have hnull : r3 = .null := by
    cases h8
    unfold start; rw [if_neg hcount]
  rw [h6, hnull]

/-! ## Theorems -/

/-- C58.  If a member of a mutually exclusive group has a default and is in no other such group, then exactly one
member of the group has a value whenever `Parse` returns: the default stands in only when nothing else of the
group has a value, and then it does.  Configuration files may be read. -/
theorem group_with_default_partial {w : World} (hp : 64 ≤ w.p) {fuel : Nat} {cs : List Call} {s t : St} {es : List Event} {rest : List Text}
    {v : Val} (hs : Reached cs s.reg) (hd : PathsApart s) (h : parse w fuel s es rest = some (.returned t v))
    {n : Bytes} {g : Group} (hg : find s.groups n = some g) (hx : g.exclusive = true)
    (hm : ∀ a ∈ g.members, (s.entry a).isSome)
    {k : Int32} {o : Opt} (hk : k ∈ g.members) (ho : s.entry k = some o) (hr : hasResult o.cfg.action = true)
    (hcount : o.cfg.action ≠ .count) {d : Val} (hdef : optGet o.cfg kDefault = some d) (hnull : d ≠ .null)
    (honly : ∀ n' ∈ o.cfg.groups, ∀ g', find s.groups n' = some g' → g'.exclusive = true → n' = n) :
    ∃ a oa x, a ∈ g.members ∧ s.entry a = some oa ∧ HasValue v oa.path x ∧
      ∀ b ob y, b ∈ g.members → s.entry b = some ob → hasResult ob.cfg.action = true → HasValue v ob.path y → b = a := by
  obtain ⟨s0, s1, s2, s3, st⟩ := parse_stages h
  have done := parse_done hp hs h
  have hh := addHelp_withHelp (reached_ready hs) st.help
  obtain ⟨g1, g2, g3, g4⟩ := st.shapes
  obtain ⟨r3, h3⟩ := ((g1.trans g2).trans g3).forward (hh.kept k o ho)
  obtain ⟨s', f1, e1, f2, e2⟩ := stages_final hs st h3
  have hgroups : s'.groups = s.groups := by
    rw [f1.shape.groups, g3.groups, g2.groups, g1.groups, hh.groups]
  -- some member has a value at the end
  have hsome : ∃ a ∈ g.members, given t a = true := by
    by_cases hall : defaultAllowed s' { o with result := r3 } = true
    · exact ⟨k, hk, (given_iff e2).2 (withDefault_allowed hdef hnull hr hcount hall)⟩
    · unfold defaultAllowed at hall
      simp only [Bool.not_eq_true, List.all_eq_false] at hall
      obtain ⟨n', hn', h4⟩ := hall
      rw [hgroups] at h4
      split at h4
      · simp at h4
      · next g' hg' =>
        simp only [Bool.not_eq_true, Bool.or_eq_false_iff, Bool.not_eq_false', List.all_eq_false] at h4
        obtain ⟨h5, a, ha, h6⟩ := h4
        have := honly n' hn' g' hg' h5
        subst this
        rw [hg] at hg'; cases hg'
        exact ⟨a, ha, f2.kept a (by simpa using h6)⟩
  obtain ⟨a, ha, hga⟩ := hsome
  obtain ⟨oa, hoa⟩ := Option.isSome_iff_exists.1 (hm a ha)
  obtain ⟨ra, h4⟩ := done.kept a oa hoa
  have h5 := (given_iff h4).1 hga
  have hra := (done.contributes h4 h5).1
  have hva : HasValue v oa.path ra := ⟨done.value hd h4 h5, h5⟩
  refine ⟨a, oa, ra, ha, hoa, hva, fun b ob y hb hob hrb hvb => ?_⟩
  by_cases hab : a = b
  · exact hab.symm
  · exact absurd ⟨hva, hvb⟩ (exclusive_partial hp hs hd h (find_mem hg) hx hab ha hb hoa hob hra hrb)

/-- C58.  Without configuration files, an entry that nothing mentions has its default also if it is in groups,
provided that nothing mentions the other members of its mutually exclusive groups, and that these neither count
nor have defaults themselves. -/
theorem default_in_group_partial {w : World} (hp : 64 ≤ w.p) {fuel : Nat} {cs : List Call} {s t : St} {es : List Event} {rest : List Text}
    {v : Val} (hs : Reached cs s.reg) (hd : PathsApart s) (hn : NoConfig s) (h : parse w fuel s es rest = some (.returned t v))
    {k : Int32} {o : Opt} (ho : s.entry k = some o) (hr : hasResult o.cfg.action = true) (hcount : o.cfg.action ≠ .count)
    (hw : envWords w o.cfg ++ optWords k es ++ argWords (limit w s) k s.reg.arguments rest = [])
    (hothers : ∀ n ∈ o.cfg.groups, ∀ g, find s.groups n = some g → g.exclusive = true → ∀ m ∈ g.members, m ≠ k →
      ∃ om, s.entry m = some om ∧ om.cfg.action ≠ .count ∧ optGet om.cfg kDefault = none ∧
        envWords w om.cfg ++ optWords m es ++ argWords (limit w s) m s.reg.arguments rest = []) (x : Val) :
    HasValue v o.path x ↔ IsDefault o.cfg x ∧ x ≠ .null := by
  obtain ⟨s0, s1, s2, s3, st⟩ := parse_stages h
  have done := parse_done hp hs h
  have hh := addHelp_withHelp (reached_ready hs) st.help
  obtain ⟨g1, g2, g3, g4⟩ := st.shapes
  have h3 := unmentioned hp hs hn st ho hr hcount hw
  obtain ⟨s', f1, e1, f2, e2⟩ := stages_final hs st h3
  have hgroups : s'.groups = s.groups := by
    rw [f1.shape.groups, g3.groups, g2.groups, g1.groups, hh.groups]
  have hall : defaultAllowed s' { o with result := .null } = true := by
    unfold defaultAllowed
    rw [List.all_eq_true]
    intro n hn'
    rw [hgroups]
    split
    · rfl
    · next g hg =>
      cases hx : g.exclusive with
      | false => rfl
      | true =>
        simp only [Bool.not_true, Bool.false_or, List.all_eq_true]
        intro m hmem
        cases hgm : given s' m with
        | false => rfl
        | true =>
          exfalso
          by_cases hmk : m = k
          · subst hmk
            exact (given_iff e1).1 hgm rfl
          · obtain ⟨om, h5, h6, h7, h8⟩ := hothers n hn' g hg hx m hmem hmk
            obtain ⟨rm, h9⟩ := done.kept m om h5
            have hrm := (done.contributes h9 ((given_iff h9).1 (f2.kept m hgm))).1
            have h10 := unmentioned hp hs hn st h5 hrm h6 h8
            have h11 := f1.new m _ h10 h7 hgm
            exact (given_iff h10).1 h11 rfl
  rw [show o.path = ({ o with result := withDefault s' { o with result := .null } } : Opt).path from rfl,
    done.hasValue hd e2 hr x]
  refine and_congr_left fun hx => ?_
  unfold withDefault IsDefault
  dsimp only
  cases hdef : optGet o.cfg kDefault with
  | none => simp; exact fun e => hx e.symm
  | some d =>
    dsimp only
    rw [if_pos hall]
    cases ha : o.cfg.action <;> rw [ha] at hr hcount <;> first
      | (cases hr; done)
      | exact absurd rfl hcount
      | simp [eq_comm]

theorem chain_flag {w : World} {c : Config} (ha : c.action = .storeTrue) {a r : Val} {ws : List (Option Text)} (h : Chain (Says w c) a ws r) :
    (∀ x ∈ ws, x = none) ∧ ((ws = [] ∧ r = a) ∨ (ws ≠ [] ∧ r = .bool true)) := by
  induction h with
  | nil a => exact ⟨nofun, .inl ⟨rfl, rfl⟩⟩
  | cons h1 h2 ih =>
    have : ∀ {a b : Val} {x : Option Text}, Says w c a x b → x = none ∧ b = .bool true := by
      intro a b x h
      cases h <;> rw [ha] at * <;> first
        | exact ⟨rfl, rfl⟩
        | contradiction
    obtain ⟨rfl, rfl⟩ := this h1
    refine ⟨fun x hx => ?_, .inr ⟨List.cons_ne_nil _ _, ?_⟩⟩
    · rcases List.mem_cons.1 hx with h | h
      · exact h
      · exact ih.1 x h
    · rcases ih.2 with h | h <;> exact h.2

/-- C58.  Without configuration files, a flag that is mentioned on the command line is true in the result, however
often it is mentioned; otherwise it has its default or no value. -/
theorem flag_partial {w : World} (hp : 64 ≤ w.p) {fuel : Nat} {cs : List Call} {s t : St} {es : List Event} {rest : List Text}
    {v : Val} (hs : Reached cs s.reg) (hd : PathsApart s) (hn : NoConfig s) (h : parse w fuel s es rest = some (.returned t v))
    {k : Int32} {o : Opt} (ho : s.entry k = some o) (ha : o.cfg.action = .storeTrue) :
    ((∃ e ∈ es, e.id = k) → ∀ x, HasValue v o.path x ↔ x = .bool true) ∧
    ((∀ e ∈ es, e.id ≠ k) → ∀ x, HasValue v o.path x → IsDefault o.cfg x) := by
  obtain ⟨r, h1, h2, h3⟩ := words_in_order_partial hp hs hd hn h ho (by rw [ha]; rfl)
  obtain ⟨h4, h5⟩ := chain_flag ha h1
  have henv : envWords w o.cfg = [] := by
    cases he : envWords w o.cfg with
    | nil => rfl
    | cons x xs =>
      have : x = none := h4 x (by rw [he]; simp)
      unfold envWords at he
      subst this
      repeat' split at he
      all_goals cases he
  have harg : argWords (limit w s) k s.reg.arguments rest = [] := by
    cases he : argWords (limit w s) k s.reg.arguments rest with
    | nil => rfl
    | cons x xs =>
      have hx : x = none := h4 x (by rw [he]; simp)
      have : x ∈ argWords (limit w s) k s.reg.arguments rest := by rw [he]; simp
      unfold argWords at this
      obtain ⟨y, _, hy⟩ := List.mem_map.1 this
      rw [hx] at hy; cases hy
  rw [henv, harg, List.nil_append, List.append_nil] at h5
  have hstart : start o.cfg = .null := by unfold start; rw [if_neg (by rw [ha]; nofun)]
  rw [hstart] at h5
  constructor
  · rintro ⟨e, he, hk⟩ x
    rcases h5 with ⟨h6, _⟩ | ⟨_, rfl⟩
    · have : e.arg ∈ optWords k es := List.mem_map_of_mem (List.mem_filter.2 ⟨he, by simpa using hk⟩)
      rw [h6] at this; cases this
    · have h7 := h2 nofun
      constructor
      · rintro ⟨h8, _⟩
        have h9 := h7.1
        rw [h8] at h9; cases h9; rfl
      · rintro rfl; exact h7
  · intro hno x hx
    rcases h5 with ⟨_, rfl⟩ | ⟨h6, _⟩
    · exact h3 rfl x hx
    · exfalso
      apply h6
      unfold optWords
      rw [List.map_eq_nil_iff, List.filter_eq_nil_iff]
      intro e he
      simpa using hno e he

/-- C58.  A mutually exclusive group of flags of which one is the default is a choice: whenever `Parse` returns,
exactly one of them is in the result and it is true.  It is the one mentioned on the command line, and the default if
none is. -/
theorem choice_partial {w : World} (hp : 64 ≤ w.p) {fuel : Nat} {cs : List Call} {s t : St} {es : List Event} {rest : List Text}
    {v : Val} (hs : Reached cs s.reg) (hd : PathsApart s) (hn : NoConfig s) (h : parse w fuel s es rest = some (.returned t v))
    {n : Bytes} {g : Group} (hg : find s.groups n = some g) (hx : g.exclusive = true)
    {k : Int32} {o : Opt} (hk : k ∈ g.members) (ho : s.entry k = some o) (hdef : optGet o.cfg kDefault = some (.bool true))
    (honly : ∀ n' ∈ o.cfg.groups, ∀ g', find s.groups n' = some g' → g'.exclusive = true → n' = n)
    (hm : ∀ a ∈ g.members, ∃ oa, s.entry a = some oa ∧ oa.cfg.action = .storeTrue ∧ (a ≠ k → optGet oa.cfg kDefault = none)) :
    ∃ a ∈ g.members, (∀ b ∈ g.members, ∀ ob, s.entry b = some ob → ∀ x, HasValue v ob.path x ↔ b = a ∧ x = .bool true) ∧
      (∀ b ∈ g.members, (∃ e ∈ es, e.id = b) → b = a) ∧ ((∀ b ∈ g.members, ∀ e ∈ es, e.id ≠ b) → a = k) := by
  have hok : o.cfg.action = .storeTrue := by
    obtain ⟨ok, h1, h2, _⟩ := hm k hk
    rw [ho] at h1; cases h1; exact h2
  obtain ⟨a, oa, x, ha, hoa, hva, huniq⟩ := group_with_default_partial hp hs hd h hg hx
    (fun a ha => by obtain ⟨oa, h1, _⟩ := hm a ha; rw [h1]; rfl) hk ho (by rw [hok]; rfl) (by rw [hok]; nofun) hdef nofun honly
  -- what a member has is true
  have htrue : ∀ b ∈ g.members, ∀ ob, s.entry b = some ob → ∀ x, HasValue v ob.path x → x = .bool true := by
    intro b hb ob hob y hy
    obtain ⟨ob', h1, h2, h3⟩ := hm b hb
    rw [hob] at h1; cases h1
    obtain ⟨f1, f2⟩ := flag_partial hp hs hd hn h hob h2
    by_cases he : ∃ e ∈ es, e.id = b
    · exact (f1 he y).1 hy
    · obtain ⟨d, h4, h5⟩ := f2 (fun e h4 h5 => he ⟨e, h4, h5⟩) y hy
      rw [h2] at h5
      dsimp only at h5
      by_cases hbk : b = k
      · subst hbk
        rw [hob] at ho; cases ho
        rw [hdef] at h4; cases h4; exact h5
      · rw [h3 hbk] at h4; cases h4
  refine ⟨a, ha, ?_, ?_, ?_⟩
  · intro b hb ob hob y
    have hrb : hasResult ob.cfg.action = true := by
      obtain ⟨ob', h1, h2, _⟩ := hm b hb
      rw [hob] at h1; cases h1
      rw [h2]; rfl
    constructor
    · intro hy
      exact ⟨huniq b ob y hb hob hrb hy, htrue b hb ob hob y hy⟩
    · rintro ⟨rfl, rfl⟩
      have e : oa = ob := by rw [hob] at hoa; cases hoa; rfl
      subst e
      have := htrue b hb oa hob x hva
      rw [← this]; exact hva
  · intro b hb he
    obtain ⟨ob, h1, h2, _⟩ := hm b hb
    exact huniq b ob (.bool true) hb h1 (by rw [h2]; rfl) (((flag_partial hp hs hd hn h h1 h2).1 he _).2 rfl)
  · intro hno
    obtain ⟨oa', h1, h2, h3⟩ := hm a ha
    rw [hoa] at h1; cases h1
    obtain ⟨d, h4, _⟩ := (flag_partial hp hs hd hn h hoa h2).2 (hno a ha) x hva
    by_cases hak : a = k
    · exact hak
    · rw [h3 hak] at h4; cases h4

end Verif.Args
