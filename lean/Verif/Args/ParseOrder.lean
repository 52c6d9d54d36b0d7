import Verif.Args.ParseProps
/-!
# C58, C59: the order in which words count
-/

namespace Verif.Args
open Verif JsonDrv Schema

theorem Chain.append {α β : Type} {R : α → β → α → Prop} {a b c : α} {xs ys : List β} (h : Chain R a xs b) (h' : Chain R b ys c) :
    Chain R a (xs ++ ys) c := by
  induction h with
  | nil => exact h'
  | cons h1 _ ih => exact .cons h1 (ih h')

/-- A counting entry has a count. -/
def CountOk (o : Opt) : Prop := o.cfg.action = .count → ∃ n, o.result = .uint n

theorem says_count {w : World} {c : Config} {a b : Val} {x : Option Text} (h : Says w c a x b) (hc : c.action = .count) :
    ∃ n, b = .uint n := by
  cases h with
  | count => exact ⟨_, rfl⟩
  | store h => rw [hc] at h; cases h
  | first h => rw [hc] at h; cases h
  | append h => rw [hc] at h; cases h
  | const h => rw [hc] at h; cases h
  | yes h => rw [hc] at h; cases h
  | no h => rw [hc] at h; cases h

theorem chain_count {w : World} {c : Config} {a b : Val} {xs : List (Option Text)} (h : Chain (Says w c) a xs b)
    (hc : c.action = .count) (ha : ∃ n, a = .uint n) : ∃ n, b = .uint n := by
  induction h with
  | nil => exact ha
  | cons h1 _ ih => exact ih (says_count h1 hc)

/-- Between two states, these words were given for an entry. -/
def Follows (w : World) (k : Int32) (s t : St) (words : List (Option Text)) : Prop :=
  ∀ o, s.entry k = some o → hasResult o.cfg.action = true → CountOk o →
    ∃ r, t.entry k = some { o with result := r } ∧ Chain (Says w o.cfg) o.result words r

theorem Follows.of_eq {w k} {s t : St} (h : t.entry k = s.entry k) : Follows w k s t [] := by
  intro o ho _ _
  exact ⟨o.result, by rw [h, ho], .nil _⟩

theorem Follows.trans {w k} {a b c : St} {xs ys} (h : Follows w k a b xs) (h' : Follows w k b c ys) : Follows w k a c (xs ++ ys) := by
  intro o ho hr hc
  obtain ⟨r, h1, h2⟩ := h o ho hr hc
  obtain ⟨r', h3, h4⟩ := h' _ h1 hr (fun ha => chain_count h2 ha (hc ha))
  exact ⟨r', h3, h2.append h4⟩

theorem guess_not_list (fo : FloatOps) (stale : Bool) (s : Bytes) (xs : List Val) : Guess.guess fo stale s ≠ .list xs := by
  unfold Guess.guess
  dsimp only
  have h10 : ∀ t, Guess.int10 stale t ≠ .list xs := by
    intro t
    unfold Guess.int10
    dsimp only
    generalize (stale || _) = q
    by_cases h : Guess.strtoll (Guess.sign t).1 (decVal 0 (Guess.sign t).2) = 2 ^ 63 - 1 ∧ q = true
    · rw [if_pos h]; intro e; cases e
    · rw [if_neg h]; intro e; cases e
  intro e
  repeat' split at e
  all_goals first
    | exact h10 _ e
    | cases e

theorem parseArg_cases {w : World} {c : Config} {arg : Option Text} {x : Val} (h : parseArg w c arg = .ok x) :
    (hasArg c.action = true ∧ (∃ t, arg = some t) ∧ ∀ xs, x ≠ .list xs) ∨ (hasArg c.action = false ∧ arg = none ∧ x = .null) := by
  unfold parseArg at h
  split at h
  · next ha =>
    refine .inl ⟨ha, ?_⟩
    split at h
    · cases h
    · next t =>
      refine ⟨⟨t, rfl⟩, ?_⟩
      have huint : ∀ b, parseUInt b = .ok x → ∀ xs, x ≠ .list xs := by
        intro b h xs
        unfold parseUInt at h
        split at h
        · cases h
        · split at h
          · cases h
          · cases h; nofun
      split at h
      · cases h; nofun
      · unfold parseInt at h
        dsimp only at h
        split at h
        · cases h
        · split at h
          · cases h
          · revert h
            generalize (t.erange || _) = q
            intro h
            by_cases hq : Guess.strtoll (Ext.sign (List.dropWhile isSpace t.bytes)).fst
              (decVal 0 (spanDigits (Ext.sign (List.dropWhile isSpace t.bytes)).snd).fst) = 2 ^ 63 - 1 ∧ q = true
            · rw [if_pos hq] at h; exact huint _ h
            · rw [if_neg hq] at h; cases h; nofun
      · exact huint _ h
      · unfold parseFloat at h
        dsimp only at h
        split at h
        · cases h
        · cases h; nofun
      · cases h; nofun
      · cases h; exact guess_not_list _ _ _
  · next ha =>
    split at h
    · cases h
    · next hn =>
      cases h
      refine .inr ⟨by simpa using ha, ?_, rfl⟩
      cases arg with
      | none => rfl
      | some t => simp at hn

theorem store_ok {s t : St} {id : Int32} {v : Out Val} (h : store s id v = some (t, .ok ())) : ∃ r, v = .ok r ∧ t = setResult s id r := by
  cases v with
  | ok r => cases h; exact ⟨r, rfl, rfl⟩
  | throw e => cases h
  | ub => cases h

/-- One mention of an entry that has a value. -/
theorem handleOpt_says {w : World} (hp : 64 ≤ w.p) {h s id o arg x t} (hr : hasResult o.cfg.action = true) (hc : CountOk o)
    (ha : parseArg w o.cfg arg = .ok x) (e : handleOpt w h s id o x = some (t, .ok ())) :
    ∃ r, t = setResult s id r ∧ Says w o.cfg o.result arg r := by
  have hcases := parseArg_cases ha
  unfold handleOpt at e
  cases hact : o.cfg.action <;> rw [hact] at e hr hcases <;> dsimp only at e
  case store =>
    obtain ⟨r, h1, h2⟩ := store_ok e
    obtain ⟨_, h3, h4⟩ := Out.bind_eq_ok.1 h1
    cases h4
    rcases hcases with ⟨_, ⟨tx, rfl⟩, _⟩ | ⟨h5, _⟩
    · exact ⟨_, h2, .store hact ha (check_meets hp h3)⟩
    · cases h5
  case storeConst =>
    obtain ⟨r, h1, h2⟩ := store_ok e
    rcases hcases with ⟨h5, _⟩ | ⟨_, rfl, rfl⟩
    · cases h5
    · cases hk : optGet o.cfg kConst with
      | some v => rw [hk] at h1; cases h1; exact ⟨_, h2, .const hact hk⟩
      | none => rw [hk] at h1; cases h1
  case storeTrue =>
    obtain ⟨r, h1, h2⟩ := store_ok e
    rcases hcases with ⟨h5, _⟩ | ⟨_, rfl, rfl⟩
    · cases h5
    · cases h1; exact ⟨_, h2, .yes hact⟩
  case storeFalse =>
    obtain ⟨r, h1, h2⟩ := store_ok e
    rcases hcases with ⟨h5, _⟩ | ⟨_, rfl, rfl⟩
    · cases h5
    · cases h1; exact ⟨_, h2, .no hact⟩
  case append =>
    rcases hcases with ⟨_, ⟨tx, rfl⟩, hl⟩ | ⟨h5, _⟩
    · have hx : pieces x = [x] := by
        cases x <;> first | rfl | exact absurd rfl (hl _)
      rw [hx] at e
      simp only [Option.some.injEq, Prod.mk.injEq] at e
      obtain ⟨e1, e2⟩ := e
      rw [← e1]
      refine ⟨_, rfl, ?_⟩
      simp only [appendAll] at e2 ⊢
      cases hk : checkRequirements w o.cfg x with
      | throw _ => rw [hk] at e2; cases e2
      | ub => rw [hk] at e2; cases e2
      | ok _ =>
        rw [hk] at e2
        have hm := check_meets hp hk
        dsimp only at e2 ⊢
        cases hres : o.result <;> rw [hres] at e2 <;> first
          | (cases e2; done)
          | exact .first hact ha hm
          | exact .append hact ha hm
    · cases h5
  case count =>
    obtain ⟨r, h1, h2⟩ := store_ok e
    rcases hcases with ⟨h5, _⟩ | ⟨_, rfl, rfl⟩
    · cases h5
    · obtain ⟨n, hn⟩ := hc hact
      rw [hn] at h1
      cases h1
      refine ⟨_, h2, ?_⟩
      rw [hn]
      exact .count hact
  all_goals (cases hr; done)

theorem handle_nonconfig {w : World} {fuel s id o x t y} (ho : s.entry id = some o)
    (e : handle w fuel s id x = some (t, y)) : ∃ h, handleOpt w h s id o x = some (t, y) := by
  cases fuel with
  | zero => cases e
  | succ n => rw [handle, ho] at e; exact ⟨_, e⟩

theorem handleOption_follows {w : World} (hp : 64 ≤ w.p) {fuel s id arg t} (hc : ∀ o, s.entry id = some o → isConfig o.cfg.action = false)
    (e : handleOption w fuel s id arg = some (t, .ok ())) (k : Int32) : Follows w k s t (if id = k then [arg] else []) := by
  unfold handleOption at e
  split at e
  · cases e
  · next o ho =>
    split at e
    · next x hx =>
      obtain ⟨h, e⟩ := handle_nonconfig ho e
      by_cases hk : id = k
      · subst hk
        rw [if_pos rfl]
        intro o' ho' hr hcnt
        rw [ho] at ho'; cases ho'
        obtain ⟨r, rfl, h2⟩ := handleOpt_says hp hr hcnt hx e
        refine ⟨r, ?_, .cons h2 (.nil _)⟩
        rw [entry_setResult, ho]; simp
      · rw [if_neg hk]
        apply Follows.of_eq
        rcases handleOpt_cases (hc o ho) e with ⟨r, _, rfl⟩ | ⟨h1, _⟩
        · rw [entry_setResult]
          cases s.entry k <;> simp [Ne.symm hk]
        · unfold St.entry; rw [h1]
    · cases e
    · cases e

theorem Shape.nonconfig {s t : St} (h : Shape s t) {id : Int32} (hc : ∀ o, s.entry id = some o → isConfig o.cfg.action = false) :
    ∀ o, t.entry id = some o → isConfig o.cfg.action = false := by
  intro o ho
  obtain ⟨r, h1⟩ := h.back ho
  exact hc { o with result := r } h1

theorem events_follows {w : World} (hp : 64 ≤ w.p) {fuel} {es : List Event} {s t : St}
    (hc : ∀ e ∈ es, ∀ o, s.entry e.id = some o → isConfig o.cfg.action = false)
    (e : events w fuel s es = some (t, .ok true)) (k : Int32) : Follows w k s t (optWords k es) := by
  induction es generalizing s with
  | nil => cases e; exact Follows.of_eq rfl
  | cons ev es ih =>
    rw [events] at e
    split at e
    · cases e
    · split at e
      · cases e
      · next s' _ h1 =>
        have hs := handleOption_keeps (shape_step w) h1
        have h2 := handleOption_follows hp (hc ev (by simp)) h1 k
        have h3 := ih (fun e' he' => hs.nonconfig (hc e' (by simp [he']))) e
        have := h2.trans h3
        unfold optWords at this ⊢
        by_cases hk : ev.id = k
        · simpa [hk] using this
        · simpa [hk] using this
      · cases e
      · cases e

theorem events_append {w : World} {fuel} {pre post : List Event} {s t : St} (e : events w fuel s (pre ++ post) = some (t, .ok true)) :
    ∃ u, events w fuel s pre = some (u, .ok true) ∧ events w fuel u post = some (t, .ok true) := by
  induction pre generalizing s with
  | nil => exact ⟨s, rfl, e⟩
  | cons ev es ih =>
    rw [List.cons_append, events] at e
    rw [events]
    split at e
    · cases e
    · next hx =>
      rw [if_neg hx]
      split at e
      · cases e
      · exact ih e
      · cases e
      · cases e

theorem forEach_follows {w : World} (hp : 64 ≤ w.p) {fuel id} {rest : List Text} {s t : St}
    (hc : ∀ o, s.entry id = some o → isConfig o.cfg.action = false)
    (e : forEach (fun s t => handleOption w fuel s id (some t)) s rest = some (t, .ok ())) (k : Int32) :
    Follows w k s t (if id = k then rest.map some else []) := by
  induction rest generalizing s with
  | nil => cases e; simp only [List.map_nil, ite_self]; exact Follows.of_eq rfl
  | cons x rest ih =>
    rw [forEach] at e
    obtain ⟨s', h1, h2⟩ := andThen_ok e
    have hs := handleOption_keeps (shape_step w) h1
    have := (handleOption_follows hp hc h1 k).trans (ih (hs.nonconfig hc) h2)
    by_cases hk : id = k
    · simpa [hk] using this
    · simpa [hk] using this

theorem Shape.limit {s t : St} (h : Shape s t) (w : World) : Args.limit w t = Args.limit w s := by
  funext id
  unfold Args.limit
  cases hs : s.entry id with
  | none =>
    cases ht : t.entry id with
    | none => rfl
    | some o => obtain ⟨r, h1⟩ := h.back ht; rw [hs] at h1; cases h1
  | some o => obtain ⟨r, h1⟩ := h.forward hs; rw [h1]

theorem taken_take (n : Nat) (rest : List Text) : rest.take (taken n rest) = rest.take (if n = 0 then rest.length else n) ∧
    rest.drop (taken n rest) = rest.drop (if n = 0 then rest.length else n) := by
  unfold taken
  split
  · exact ⟨rfl, rfl⟩
  · rcases Nat.le_total n rest.length with h | h
    · rw [Nat.min_eq_left h]; exact ⟨rfl, rfl⟩
    · rw [Nat.min_eq_right h, List.take_length, List.take_of_length_le h, List.drop_length, List.drop_of_length_le h]
      exact ⟨rfl, rfl⟩

theorem takeArgs_follows {w : World} (hp : 64 ≤ w.p) {fuel} {ids : List Int32} {rest : List Text} {s t : St}
    (hc : ∀ id ∈ ids, ∀ o, s.entry id = some o → isConfig o.cfg.action = false)
    (e : takeArgs w fuel s ids rest = some (t, .ok ())) (k : Int32) :
    Follows w k s t (argWords (limit w s) k ids rest) ∧ (shares (limit w s) ids rest).flatMap (·.2) = rest := by
  induction ids generalizing s rest with
  | nil =>
    rw [takeArgs] at e
    split at e
    · cases e
    · next hr =>
      cases e
      simp only [ne_eq, Decidable.not_not] at hr
      subst hr
      exact ⟨Follows.of_eq rfl, rfl⟩
  | cons id ids ih =>
    rw [takeArgs] at e
    split at e
    · cases e
    · next o ho =>
      split at e
      · next n hn =>
        split at e
        · cases e
        · obtain ⟨_, _, hn⟩ := Out.bind_eq_ok.1 hn
          have hlim : limit w s id = n := by unfold limit; rw [ho]; dsimp only; rw [hn]
          obtain ⟨h3, h4⟩ := taken_take n rest
          rw [h3, h4] at e
          obtain ⟨s', h1, h2⟩ := andThen_ok e
          have hs := forEach_keeps (shape_step w) (fun _ e => handleOption_keeps (shape_step w) e) h1
          have h5 := forEach_follows hp (hc id (by simp)) h1 k
          obtain ⟨h6, h7⟩ := ih (fun i hi => hs.nonconfig (hc i (by simp [hi]))) h2
          rw [hs.limit] at h6 h7
          constructor
          · have := h5.trans h6
            unfold argWords at this ⊢
            simp only [shares, hlim]
            by_cases hk : id = k
            · subst hk; simpa using this
            · simpa [hk] using this
          · simp only [shares, hlim, List.flatMap_cons, h7, List.take_append_drop]
      · cases e
      · cases e

/-! ## The environment -/

theorem fromEnv_follows {w : World} (hp : 64 ≤ w.p) {fuel s id o t} (ho : ∃ r, s.entry id = some { o with result := r })
    (hc : isConfig o.cfg.action = false) (e : fromEnv w fuel s id o = some (t, .ok ())) (k : Int32) :
    Follows w k s t (if id = k then envWords w o.cfg else []) := by
  unfold fromEnv at e
  unfold envWords
  cases h1 : optGet o.cfg kEnv with
  | none => rw [h1] at e; cases e; simp only [ite_self]; exact Follows.of_eq rfl
  | some x =>
    rw [h1] at e
    dsimp only at e ⊢
    cases h2 : Build.asString w.fo.fltText x with
    | throw _ => rw [h2] at e; cases e
    | ub => rw [h2] at e; cases e
    | ok name =>
      rw [h2] at e
      dsimp only at e ⊢
      cases h3 : w.getenv (name.takeWhile (· ≠ 0)) with
      | none => rw [h3] at e; cases e; simp only [ite_self]; exact Follows.of_eq rfl
      | some tx =>
        rw [h3] at e
        refine handleOption_follows hp ?_ e k
        intro o' ho'
        obtain ⟨r, h4⟩ := ho
        rw [h4] at ho'
        cases ho'
        exact hc

/-- The value of an entry after the environment was looked at. -/
theorem init_value {w : World} (hp : 64 ≤ w.p) {fuel} {keys : List Int32} {s t : St} (hn : keys.Nodup)
    (hc : ∀ id o, s.entry id = some o → isConfig o.cfg.action = false)
    (e : forEach (initOne w fuel) s keys = some (t, .ok ())) {k : Int32} {o : Opt} (ho : s.entry k = some o)
    (hr : hasResult o.cfg.action = true) :
    (k ∉ keys → t.entry k = some o) ∧
    (k ∈ keys → o.result = .null → ∃ r, t.entry k = some { o with result := r } ∧ Chain (Says w o.cfg) (start o.cfg) (envWords w o.cfg) r) := by
  induction keys generalizing s o with
  | nil => cases e; exact ⟨fun _ => ho, nofun⟩
  | cons a keys ih =>
    simp only [List.nodup_cons] at hn
    rw [forEach] at e
    obtain ⟨s', h1, h2⟩ := andThen_ok e
    have hshape : Shape s s' := initOne_keeps (shape_step w) (fun _ _ => shape_setResult ..) h1
    have hc' : ∀ id o, s'.entry id = some o → isConfig o.cfg.action = false := fun id => hshape.nonconfig (hc id)
    unfold initOne at h1
    by_cases hka : k = a
    · subst hka
      rw [ho] at h1
      dsimp only at h1
      refine ⟨fun h => absurd (by simp) h, fun _ hnull => ?_⟩
      have hmid : ∃ r, (if o.cfg.action = .count then setResult s k (.uint 0) else s).entry k = some { o with result := r } ∧ r = start o.cfg := by
        unfold start
        split
        · exact ⟨_, by rw [entry_setResult, ho]; simp, rfl⟩
        · exact ⟨_, ho, hnull⟩
      obtain ⟨r, h3, rfl⟩ := hmid
      have h4 := fromEnv_follows hp ⟨_, h3⟩ (hc k o ho) h1 k
      rw [if_pos rfl] at h4
      obtain ⟨r', h5, h6⟩ := h4 _ h3 hr (fun ha => by unfold start; dsimp only at ha; rw [if_pos ha]; exact ⟨0, rfl⟩)
      obtain ⟨h7, _⟩ := ih hn.2 hc' h2 h5 hr
      exact ⟨r', h7 hn.1, h6⟩
    · have h3 : s'.entry k = some o := by
        split at h1
        · cases h1; exact ho
        · next oa hoa =>
          have hmid : (if oa.cfg.action = .count then setResult s a (.uint 0) else s).entry k = some o := by
            split
            · rw [entry_setResult, ho]; simp [hka]
            · exact ho
          have hma : ∃ r, (if oa.cfg.action = .count then setResult s a (.uint 0) else s).entry a = some { oa with result := r } := by
            split
            · exact ⟨.uint 0, by rw [entry_setResult, hoa]; simp⟩
            · exact ⟨_, hoa⟩
          obtain ⟨r, hma⟩ := hma
          have h4 : s'.entry k = (if oa.cfg.action = .count then setResult s a (.uint 0) else s).entry k := by
            have hnc := hc a oa hoa
            revert h1 hma
            generalize (if oa.cfg.action = .count then setResult s a (.uint 0) else s) = m
            intro h1 hma
            unfold fromEnv at h1
            split at h1
            · cases h1; rfl
            · split at h1
              · split at h1
                · cases h1; rfl
                · unfold handleOption at h1
                  rw [hma] at h1
                  dsimp only at h1
                  split at h1
                  · obtain ⟨h, e⟩ := handle_nonconfig hma h1
                    rcases handleOpt_cases (o := { oa with result := r }) hnc e with ⟨r, _, rfl⟩ | ⟨h1, _⟩
                    · rw [entry_setResult]
                      cases m.entry k <;> simp [hka]
                    · unfold St.entry; rw [h1]
                  · cases h1
                  · cases h1
              · cases h1
              · cases h1
          rw [h4, hmid]
      obtain ⟨h4, h5⟩ := ih hn.2 hc' h2 h3 hr
      refine ⟨fun h => h4 (fun h' => h (by simp [h'])), fun h => h5 ?_⟩
      rcases List.mem_cons.1 h with h | h
      · exact absurd h hka
      · exact h

theorem NoConfig.help {s s0 : St} (hn : NoConfig s) (h : WithHelp s s0) : ∀ id o, s0.entry id = some o → isConfig o.cfg.action = false := by
  intro id o ho
  rcases h.added id o ho with h1 | ⟨_, h1, _⟩
  · obtain ⟨h2, h3, h4, h5⟩ := hn id o h1
    cases ha : o.cfg.action <;> simp_all [isConfig]
  · rcases h1 with h1 | h1 <;> rw [h1] <;> rfl

/-! ## Theorems -/

/-- What a value before the defaults means for the result. -/
theorem final_value {w : World} (hp : 64 ≤ w.p) {fuel : Nat} {cs : List Call} {s t s0 s1 s2 s3 : St} {es : List Event} {rest : List Text}
    {v : Val} (hs : Reached cs s.reg) (hd : PathsApart s) (h : parse w fuel s es rest = some (.returned t v))
    (st : Stages w fuel s es rest t v s0 s1 s2 s3) {k : Int32} {o : Opt} (hr : hasResult o.cfg.action = true)
    (h3 : s3.entry k = some o) :
    (o.result ≠ .null → HasValue v o.path o.result) ∧
    (o.result = .null → ∃ s', Shape s3 s' ∧ ∀ x, HasValue v o.path x ↔ withDefault s' o = x ∧ x ≠ .null) := by
  have d := parse_done hp hs h
  have hh := addHelp_withHelp (reached_ready hs) st.help
  obtain ⟨g1, g2, g3, _⟩ := st.shapes
  have hk3 : (s3.reg.optionMap.map (·.1)).Nodup := by rw [((g1.trans g2).trans g3).keys]; exact hh.ready.nodup
  obtain ⟨_, hf⟩ := final_loop hk3 st.final
  obtain ⟨s', r, h5, h6, _, h7⟩ := hf k o (entry_key h3) h3
  have hv := fun x => d.hasValue hd h7 hr x
  dsimp only at hv
  subst h5
  constructor
  · intro hn
    refine (hv o.result).2 ⟨?_, hn⟩
    rcases withDefault_cases s' o with h8 | ⟨h8, _⟩
    · exact h8
    · exact absurd h8 hn
  · intro _
    exact ⟨s', h6, hv⟩

/-- C58.  Without configuration files, the value of every entry is what its words make of it, one after the other:
the word from the environment, then those given with its option from left to right, then those it takes as an
argument.  An entry without value then has its default or none. -/
theorem words_in_order_partial {w : World} (hp : 64 ≤ w.p) {fuel : Nat} {cs : List Call} {s t : St} {es : List Event} {rest : List Text}
    {v : Val} (hs : Reached cs s.reg) (hd : PathsApart s) (hn : NoConfig s) (h : parse w fuel s es rest = some (.returned t v))
    {k : Int32} {o : Opt} (ho : s.entry k = some o) (hr : hasResult o.cfg.action = true) :
    ∃ r, Chain (Says w o.cfg) (start o.cfg)
        (envWords w o.cfg ++ optWords k es ++ argWords (limit w s) k s.reg.arguments rest) r ∧
      (r ≠ .null → HasValue v o.path r) ∧ (r = .null → ∀ x, HasValue v o.path x → IsDefault o.cfg x) := by
  obtain ⟨s0, s1, s2, s3, st⟩ := parse_stages h
  have hh := addHelp_withHelp (reached_ready hs) st.help
  have hc0 := hn.help hh
  obtain ⟨g1, g2, g3, g4⟩ := st.shapes
  have ho0 := hh.kept k o ho
  obtain ⟨_, h1⟩ := init_value hp hh.ready.nodup hc0 st.init ho0 hr
  obtain ⟨r1, h2, h3⟩ := h1 (entry_key ho0) (hh.ready.null k o ho0)
  have hc1 := fun id => g1.nonconfig (hc0 id)
  have hc2 := fun id => g2.nonconfig (hc1 id)
  have h4 := events_follows hp (fun e _ => hc1 e.id) st.opts k
  have h5 := (takeArgs_follows hp (fun id _ => hc2 id) st.args k).1
  obtain ⟨r3, h6, h7⟩ := (h4.trans h5) _ h2 hr (fun ha => chain_count h3 ha (by
    dsimp only at ha
    unfold start; rw [if_pos ha]; exact ⟨0, rfl⟩))
  have hlim : limit w s2 = limit w s0 := (g1.trans g2).limit w
  have hlim0 : ∀ ids : List Int32, (∀ id ∈ ids, (s.entry id).isSome) → ∀ rest, shares (limit w s0) ids rest = shares (limit w s) ids rest := by
    intro ids
    induction ids with
    | nil => intros; rfl
    | cons i ids ih =>
      intro hids rest
      obtain ⟨oi, hoi⟩ := Option.isSome_iff_exists.1 (hids i (by simp))
      have : limit w s0 i = limit w s i := by unfold limit; rw [hh.kept i oi hoi, hoi]
      simp only [shares, this, ih (fun id hid => hids id (by simp [hid]))]
  have hargs : s2.reg.arguments = s.reg.arguments := by rw [g2.arguments, g1.arguments, hh.arguments]
  have hinv := (reached_ready hs).inv
  have hshares : argWords (limit w s2) k s2.reg.arguments rest = argWords (limit w s) k s.reg.arguments rest := by
    unfold argWords
    rw [hlim, hargs, hlim0]
    intro id hid
    obtain ⟨oi, hoi⟩ := hinv.known id (by simp [hid])
    unfold St.entry
    rw [hoi]; rfl
  rw [hshares] at h7
  refine ⟨r3, ?_, ?_⟩
  · have := h3.append h7
    rw [← List.append_assoc] at this
    exact this
  · obtain ⟨h8, h9⟩ := final_value hp hs hd h st (o := { o with result := r3 }) hr h6
    refine ⟨h8, fun hnull x hx => ?_⟩
    obtain ⟨s', _, h10⟩ := h9 hnull
    obtain ⟨h11, h12⟩ := (h10 x).1 hx
    rcases withDefault_cases s' { o with result := r3 } with h13 | ⟨_, h13⟩
    · rw [h13] at h11; dsimp only at h11; rw [hnull] at h11; exact absurd h11.symm h12
    · rw [h11] at h13; exact h13

/-- Words of arguments do not depend on the help options. -/
theorem argWords_help {w : World} {cs : List Call} {s s0 : St} (hs : Reached cs s.reg) (hh : WithHelp s s0) (k : Int32) (rest : List Text) :
    argWords (limit w s0) k s.reg.arguments rest = argWords (limit w s) k s.reg.arguments rest ∧
    shares (limit w s0) s.reg.arguments rest = shares (limit w s) s.reg.arguments rest := by
  have hlim0 : ∀ ids : List Int32, (∀ id ∈ ids, (s.entry id).isSome) → ∀ rest, shares (limit w s0) ids rest = shares (limit w s) ids rest := by
    intro ids
    induction ids with
    | nil => intros; rfl
    | cons i ids ih =>
      intro hids rest
      obtain ⟨oi, hoi⟩ := Option.isSome_iff_exists.1 (hids i (by simp))
      have : limit w s0 i = limit w s i := by unfold limit; rw [hh.kept i oi hoi, hoi]
      simp only [shares, this, ih (fun id hid => hids id (by simp [hid]))]
  have hk : ∀ id ∈ s.reg.arguments, (s.entry id).isSome := by
    intro id hid
    obtain ⟨oi, hoi⟩ := (reached_ready hs).inv.known id (by simp [hid])
    unfold St.entry
    rw [hoi]; rfl
  unfold argWords
  rw [hlim0 _ hk]
  exact ⟨rfl, rfl⟩

/-- C58.  Configuration files may have been read before: what follows on the command line comes after them.  The
value of an entry is what the words after `pre` make of some earlier value. -/
theorem later_words_win_partial {w : World} (hp : 64 ≤ w.p) {fuel : Nat} {cs : List Call} {s t : St} {pre post : List Event}
    {rest : List Text} {v : Val} (hs : Reached cs s.reg) (hd : PathsApart s)
    (h : parse w fuel s (pre ++ post) rest = some (.returned t v))
    (hpost : ∀ e ∈ post, ∀ o, s.entry e.id = some o → isConfig o.cfg.action = false)
    (hargs : ∀ id ∈ s.reg.arguments, ∀ o, s.entry id = some o → isConfig o.cfg.action = false)
    {k : Int32} {o : Opt} (ho : s.entry k = some o) (hr : hasResult o.cfg.action = true) :
    ∃ prev r, Chain (Says w o.cfg) prev (optWords k post ++ argWords (limit w s) k s.reg.arguments rest) r ∧
      (r ≠ .null → HasValue v o.path r) := by
  obtain ⟨s0, s1, s2, s3, st⟩ := parse_stages h
  have hh := addHelp_withHelp (reached_ready hs) st.help
  obtain ⟨g1, g2, g3, g4⟩ := st.shapes
  obtain ⟨u, e1, e2⟩ := events_append st.opts
  have gu : Shape s1 u := events_keeps (shape_step w) e1
  have gu2 : Shape u s2 := events_keeps (shape_step w) e2
  have good0 : Good w s0 := fun k o hk => .inl (hh.ready.null k o hk)
  have ho0 := hh.kept k o ho
  -- a counting entry has a count in `u`
  have hcount : Step w (fun a b => (∀ o, a.entry k = some o → CountOk o) → ∀ o, b.entry k = some o → CountOk o) := by
    refine ⟨fun _ h => h, fun h1 h2 h => h2 (h1 h), ?_⟩
    intro hh s id o arg t x ho hc e hs o' ho' ha
    rcases handleOpt_cases hc e with ⟨r, hr, rfl⟩ | ⟨h1, h2⟩
    · rw [entry_setResult] at ho'
      cases hk : s.entry k with
      | none => rw [hk] at ho'; cases ho'
      | some ok =>
        rw [hk] at ho'
        simp only [Option.map_some, Option.some.injEq] at ho'
        split at ho'
        · next e =>
          subst e
          rw [ho] at hk; cases hk
          subst ho'
          dsimp only at ha ⊢
          obtain ⟨n, hn⟩ := hs o ho ha
          cases hr with
          | count _ hr => rw [hn] at hr; cases hr; exact ⟨_, rfl⟩
          | store h => rw [ha] at h; cases h
          | const h => rw [ha] at h; cases h
          | flag _ h => rcases h with h | h <;> rw [ha] at h <;> cases h
          | append _ h => rw [ha] at h; cases h
        · subst ho'; exact hs _ hk ha
    · unfold St.entry at ho'
      rw [h1] at ho'
      exact hs o' ho' ha
  have hset : ∀ {a : St} {id : Int32} {o : Opt}, (∀ o, a.entry k = some o → CountOk o) →
      ∀ o, (setResult a id (.uint 0)).entry k = some o → CountOk o := by
    intro a id o hs o' ho' ha
    rw [entry_setResult] at ho'
    cases hk : a.entry k with
    | none => rw [hk] at ho'; cases ho'
    | some ok =>
      rw [hk] at ho'
      simp only [Option.map_some, Option.some.injEq] at ho'
      split at ho'
      · subst ho'; exact ⟨0, rfl⟩
      · subst ho'; exact hs _ hk ha
  have hc1 : ∀ o, s1.entry k = some o → CountOk o := by
    have key : ∀ keys (a b : St), forEach (initOne w fuel) a keys = some (b, .ok ()) → k ∈ keys → (∀ o, b.entry k = some o → CountOk o) := by
      intro keys
      induction keys with
      | nil => intro _ _ _ h; cases h
      | cons i keys ih =>
        intro a b e hk
        rw [forEach] at e
        obtain ⟨m, m1, m2⟩ := andThen_ok e
        by_cases hik : k = i
        · subst hik
          have hm : ∀ o, m.entry k = some o → CountOk o := by
            unfold initOne at m1
            split at m1
            · next hnone => cases m1; intro o ho; rw [hnone] at ho; cases ho
            · next oi hoi =>
              refine fromEnv_keeps hcount m1 ?_
              intro o' ho' ha
              split at ho'
              · rw [entry_setResult, hoi] at ho'
                simp only [Option.map_some, if_true, Option.some.injEq] at ho'
                subst ho'; exact ⟨0, rfl⟩
              · next hne => rw [hoi] at ho'; cases ho'; exact absurd ha hne
          exact forEach_keeps hcount (fun _ e => initOne_keeps hcount (fun ho _ => hset (o := ‹_›)) e) m2 hm
        · rcases List.mem_cons.1 hk with hk | hk
          · exact absurd hk hik
          · exact ih m b m2 hk
    exact key _ _ _ st.init (entry_key ho0)
  have hcu : ∀ o, u.entry k = some o → CountOk o := events_keeps hcount e1 hc1
  obtain ⟨ru, hou⟩ := (g1.trans gu).forward ho0
  have hnc : ∀ {id : Int32}, (∀ o, s.entry id = some o → isConfig o.cfg.action = false) → ∀ o, s0.entry id = some o → isConfig o.cfg.action = false := by
    intro id hid o ho
    rcases hh.added id o ho with h1 | ⟨_, h1, _⟩
    · exact hid o h1
    · rcases h1 with h1 | h1 <;> rw [h1] <;> rfl
  have h4 := events_follows hp (fun e he => (g1.trans gu).nonconfig (hnc (hpost e he))) e2 k
  have harg2 : s2.reg.arguments = s.reg.arguments := by rw [g2.arguments, g1.arguments, hh.arguments]
  have h5 := (takeArgs_follows hp (fun id hid => (g1.trans g2).nonconfig (hnc (hargs id (harg2 ▸ hid)))) st.args k).1
  obtain ⟨r3, h6, h7⟩ := (h4.trans h5) _ hou hr (hcu _ hou)
  rw [harg2, (g1.trans g2).limit w, (argWords_help hs hh k rest).1] at h7
  exact ⟨ru, r3, h7, (final_value hp hs hd h st (o := { o with result := r3 }) hr h6).1⟩

/-- C59.  Every word that is not an option or its value goes to exactly one argument, in order: none is left out. -/
theorem words_all_taken {w : World} (hp : 64 ≤ w.p) {fuel : Nat} {cs : List Call} {s t : St} {es : List Event}
    {rest : List Text} {v : Val} (hs : Reached cs s.reg) (h : parse w fuel s es rest = some (.returned t v))
    (hargs : ∀ id ∈ s.reg.arguments, ∀ o, s.entry id = some o → isConfig o.cfg.action = false) :
    (shares (limit w s) s.reg.arguments rest).flatMap (·.2) = rest := by
  obtain ⟨s0, s1, s2, s3, st⟩ := parse_stages h
  have hh := addHelp_withHelp (reached_ready hs) st.help
  obtain ⟨g1, g2, g3, g4⟩ := st.shapes
  have hnc : ∀ {id : Int32}, (∀ o, s.entry id = some o → isConfig o.cfg.action = false) → ∀ o, s0.entry id = some o → isConfig o.cfg.action = false := by
    intro id hid o ho
    rcases hh.added id o ho with h1 | ⟨_, h1, _⟩
    · exact hid o h1
    · rcases h1 with h1 | h1 <;> rw [h1] <;> rfl
  have harg2 : s2.reg.arguments = s.reg.arguments := by rw [g2.arguments, g1.arguments, hh.arguments]
  have h5 := (takeArgs_follows hp (fun id hid => (g1.trans g2).nonconfig (hnc (hargs id (harg2 ▸ hid)))) st.args 0).2
  rw [harg2, (g1.trans g2).limit w, (argWords_help hs hh 0 rest).2] at h5
  exact h5

/-! ### Reading the chains -/

theorem chain_snoc {α β : Type} {R : α → β → α → Prop} {a c : α} {xs : List β} {x : β} (h : Chain R a (xs ++ [x]) c) :
    ∃ b, Chain R a xs b ∧ R b x c := by
  induction xs generalizing a with
  | nil =>
    cases h with
    | cons h1 h2 => cases h2; exact ⟨a, .nil a, h1⟩
  | cons y xs ih =>
    cases h with
    | cons h1 h2 =>
      obtain ⟨b, h3, h4⟩ := ih h2
      exact ⟨b, .cons h1 h3, h4⟩

/-- C58.  The last word of a storing entry is its value. -/
theorem last_word {w : World} {c : Config} {a r : Val} {ws : List (Option Text)} {x : Option Text} (hc : c.action = .store)
    (h : Chain (Says w c) a (ws ++ [x]) r) : ∃ t, x = some t ∧ parseArg w c (some t) = .ok r ∧ Meets w c r := by
  obtain ⟨b, _, h2⟩ := chain_snoc h
  clear h
  cases h2 with
  | store _ h3 h4 => exact ⟨_, rfl, h3, h4⟩
  | first h => rw [hc] at h; cases h
  | append h => rw [hc] at h; cases h
  | const h => rw [hc] at h; cases h
  | yes h => rw [hc] at h; cases h
  | no h => rw [hc] at h; cases h
  | count h => rw [hc] at h; cases h

/-- C58.  A flag that was mentioned is set; a constant that was mentioned is stored. -/
theorem mentioned_flag {w : World} {c : Config} {a r : Val} {ws : List (Option Text)} (hne : ws ≠ [])
    (h : Chain (Says w c) a ws r) :
    (c.action = .storeTrue → r = .bool true) ∧ (c.action = .storeFalse → r = .bool false) ∧
    (c.action = .storeConst → optGet c kConst = some r) := by
  obtain ⟨ys, y, rfl⟩ : ∃ ys y, ws = ys ++ [y] := ⟨ws.dropLast, ws.getLast hne, (List.dropLast_concat_getLast hne).symm⟩
  obtain ⟨b, _, h2⟩ := chain_snoc h
  refine ⟨fun hc => ?_, fun hc => ?_, fun hc => ?_⟩ <;> cases h2 <;> simp_all

/-- C58.  A counting entry counts its mentions. -/
theorem mentions_counted {w : World} {c : Config} {r : Val} {ws : List (Option Text)} (hc : c.action = .count)
    (h : Chain (Says w c) (start c) ws r) : r = .uint (UInt64.ofNat ws.length) := by
  have key : ∀ {a r : Val} {ws : List (Option Text)}, Chain (Says w c) a ws r → ∀ n, a = .uint n → r = .uint (n + UInt64.ofNat ws.length) := by
    intro a r ws h
    induction h with
    | nil => rintro n rfl; simp
    | cons h1 _ ih =>
      rintro n rfl
      cases h1 with
      | count =>
        rw [ih _ rfl]
        congr 1
        simp only [List.length_cons, UInt64.ofNat_add, UInt64.ofNat_one]
        ac_rfl
      | store h => rw [hc] at h; cases h
      | const h => rw [hc] at h; cases h
      | yes h => rw [hc] at h; cases h
      | no h => rw [hc] at h; cases h
  have := key h 0 (by unfold start; rw [if_pos hc])
  simpa using this

/-- The values of words, in order. -/
inductive Values (w : World) (c : Config) : List (Option Text) → List Val → Prop
  | nil : Values w c [] []
  | cons {t : Text} {x : Val} {ws : List (Option Text)} {xs : List Val} : parseArg w c (some t) = .ok x → Meets w c x →
      Values w c ws xs → Values w c (some t :: ws) (x :: xs)

/-- C58.  An appending entry has the list of the values of its words in order. -/
theorem appended_in_order {w : World} {c : Config} {r : Val} {ws : List (Option Text)} (hc : c.action = .append)
    (h : Chain (Says w c) (start c) ws r) : (ws = [] ∧ r = .null) ∨ ∃ xs, r = .list xs ∧ Values w c ws xs := by
  have key : ∀ {a r : Val} {ws : List (Option Text)}, Chain (Says w c) a ws r → ∀ ys, a = .list ys → ∃ xs, r = .list (ys ++ xs) ∧ Values w c ws xs := by
    intro a r ws h
    induction h with
    | nil => rintro ys rfl; exact ⟨[], by simp, .nil⟩
    | cons h1 _ ih =>
      rintro ys rfl
      cases h1 with
      | append _ h2 h3 =>
        obtain ⟨xs, h4, h5⟩ := ih _ rfl
        exact ⟨_ :: xs, by simp [h4], .cons h2 h3 h5⟩
      | store h => rw [hc] at h; cases h
      | const h => rw [hc] at h; cases h
      | yes h => rw [hc] at h; cases h
      | no h => rw [hc] at h; cases h
  have hst : start c = .null := by unfold start; rw [if_neg (by rw [hc]; nofun)]
  rw [hst] at h
  cases h with
  | nil => exact .inl ⟨rfl, rfl⟩
  | cons h1 h2 =>
    cases h1 with
    | first _ h3 h4 =>
      obtain ⟨xs, h5, h6⟩ := key h2 _ rfl
      exact .inr ⟨_ :: xs, h5, .cons h3 h4 h6⟩
    | store h => rw [hc] at h; cases h
    | const h => rw [hc] at h; cases h
    | yes h => rw [hc] at h; cases h
    | no h => rw [hc] at h; cases h

/-- C59.  If every argument takes one word, as it does unless set otherwise, the argument at a place takes the word
at that place, and there are no more words than arguments. -/
theorem one_word_each {lim : Int32 → Nat} {ids : List Int32} {rest : List Text} (hl : ∀ id ∈ ids, lim id = 1) (hn : ids.Nodup) :
    (∀ (i : Nat) k, ids[i]? = some k → argWords lim k ids rest = (rest[i]?).toList.map some) ∧
    ((shares lim ids rest).flatMap (·.2) = rest → rest.length ≤ ids.length) := by
  have hnone : ∀ (ids : List Int32) (rest : List Text) k, k ∉ ids → argWords lim k ids rest = [] := by
    intro ids
    induction ids with
    | nil => intros; rfl
    | cons a ids ih =>
      intro rest k hk
      simp only [List.mem_cons, not_or] at hk
      have := ih (rest.drop (if lim a = 0 then rest.length else lim a)) k hk.2
      unfold argWords at this ⊢
      simp only [shares]
      rw [List.filter_cons_of_neg (by simpa using fun e => hk.1 e.symm)]
      exact this
  induction ids generalizing rest with
  | nil =>
    refine ⟨nofun, fun h => ?_⟩
    simp only [shares, List.flatMap_nil] at h
    rw [← h]; simp
  | cons a ids ih =>
    simp only [List.nodup_cons] at hn
    have ha : lim a = 1 := hl a (by simp)
    obtain ⟨h1, h2⟩ := ih (rest := rest.drop 1) (fun id hid => hl id (by simp [hid])) hn.2
    constructor
    · intro i k hk
      cases i with
      | zero =>
        simp only [List.getElem?_cons_zero, Option.some.injEq] at hk
        subst hk
        have := hnone ids (rest.drop 1) a hn.1
        unfold argWords at this ⊢
        simp only [shares, ha, Nat.succ_ne_zero, if_false]
        rw [List.filter_cons_of_pos (by simp), List.flatMap_cons, List.map_append, this]
        cases rest <;> simp
      | succ i =>
        simp only [List.getElem?_cons_succ] at hk
        have := h1 i k hk
        have hka : k ≠ a := by
          rintro rfl
          exact hn.1 (List.mem_of_getElem? hk)
        unfold argWords at this ⊢
        simp only [shares, ha, Nat.succ_ne_zero, if_false]
        rw [List.filter_cons_of_neg (by simpa using fun e => hka e.symm), this]
        simp [Nat.add_comm]
    · intro h
      simp only [shares, ha, Nat.succ_ne_zero, if_false, List.flatMap_cons] at h
      have : (shares lim ids (rest.drop 1)).flatMap (·.2) = rest.drop 1 := by
        have h' := h
        conv at h' => rhs; rw [← List.take_append_drop 1 rest]
        exact List.append_cancel_left h'
      have := h2 this
      simp only [List.length_drop, List.length_cons] at this ⊢
      omega

/-- C58.  An entry in no group that is not mentioned anywhere has its default, if there is one and the entry does
not count. -/
theorem default_used_partial {w : World} (hp : 64 ≤ w.p) {fuel : Nat} {cs : List Call} {s t : St} {es : List Event} {rest : List Text}
    {v : Val} (hs : Reached cs s.reg) (hd : PathsApart s) (hn : NoConfig s) (h : parse w fuel s es rest = some (.returned t v))
    {k : Int32} {o : Opt} (ho : s.entry k = some o) (hr : hasResult o.cfg.action = true) (hcount : o.cfg.action ≠ .count)
    (hg : o.cfg.groups = [])
    (hw : envWords w o.cfg ++ optWords k es ++ argWords (limit w s) k s.reg.arguments rest = []) (x : Val) :
    HasValue v o.path x ↔ IsDefault o.cfg x ∧ x ≠ .null := by
  obtain ⟨s0, s1, s2, s3, st⟩ := parse_stages h
  have hh := addHelp_withHelp (reached_ready hs) st.help
  have hc0 := hn.help hh
  obtain ⟨g1, g2, g3, g4⟩ := st.shapes
  have ho0 := hh.kept k o ho
  obtain ⟨_, h1⟩ := init_value hp hh.ready.nodup hc0 st.init ho0 hr
  obtain ⟨r1, h2, h3⟩ := h1 (entry_key ho0) (hh.ready.null k o ho0)
  have hc1 := fun id => g1.nonconfig (hc0 id)
  have hc2 := fun id => g2.nonconfig (hc1 id)
  have h4 := events_follows hp (fun e _ => hc1 e.id) st.opts k
  have h5 := (takeArgs_follows hp (fun id _ => hc2 id) st.args k).1
  obtain ⟨r3, h6, h7⟩ := (h4.trans h5) _ h2 hr (fun ha => absurd ha hcount)
  have harg2 : s2.reg.arguments = s.reg.arguments := by rw [g2.arguments, g1.arguments, hh.arguments]
  rw [harg2, (g1.trans g2).limit w, (argWords_help hs hh k rest).1] at h7
  have h8 := h3.append h7
  rw [← List.append_assoc, hw] at h8
  have hnull : r3 = .null := by
    cases h8
    unfold start; rw [if_neg hcount]
  subst hnull
  obtain ⟨_, h9⟩ := final_value hp hs hd h st (o := { o with result := .null }) hr h6
  obtain ⟨s', _, h10⟩ := h9 rfl
  rw [h10 x]
  have hall : defaultAllowed s' { o with result := .null } = true := by
    unfold defaultAllowed; dsimp only; rw [hg]; rfl
  refine and_congr_left fun hx => ?_
  unfold withDefault IsDefault
  dsimp only
  cases hdef : optGet o.cfg kDefault with
  | none => simp; exact fun e => hx e.symm
  | some d =>
    dsimp only
    rw [if_pos hall]
    cases ha : o.cfg.action <;> rw [ha] at hr hcount <;> first
      | (cases hr; done)
      | exact absurd rfl hcount
      | simp [eq_comm]

end Verif.Args
