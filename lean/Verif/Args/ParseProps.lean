import Verif.Args.ParseShape
import Verif.Args.ParseSpec
/-!
# C56, C57, C60: what a returned command line satisfies
-/

namespace Verif.Args
open Verif JsonDrv Schema

/-! ## Requirements -/

theorem needs_ok {c : Config} {k : Bytes} {f : Val → Out Unit} (h : needs c k f = .ok ()) {x : Val} (hx : optGet c k = some x) : f x = .ok () := by
  unfold needs at h
  rw [hx] at h
  exact h

theorem refuse_ok {b : Bool} (h : refuse b = .ok ()) : b = false := by
  cases b with
  | false => rfl
  | true => cases h

theorem value_size {n : Nat} (h : n < 2 ^ 64) : value (.uint (UInt64.ofNat n)) = some ((n : Int) * 2 ^ 1074) := by
  simp only [value]
  rw [UInt64.toNat_ofNat', Nat.mod_eq_of_lt h]

theorem cmp_not_lt {p : Nat} (hp : 64 ≤ p) {v l : Val} {a b : Int} (hv : value v = some a) (hl : value l = some b)
    (h : decide (cmp p v l < 0) = false) : b ≤ a := by
  rw [cmp_value hp hv hl] at h
  by_cases e : a < b
  · rw [if_pos e] at h; cases h
  · omega

theorem cmp_not_gt {p : Nat} (hp : 64 ≤ p) {v l : Val} {a b : Int} (hv : value v = some a) (hl : value l = some b)
    (h : decide (cmp p v l > 0) = false) : a ≤ b := by
  rw [cmp_value hp hv hl] at h
  by_cases e : b < a
  · rw [if_neg (by omega), if_pos e] at h; cases h
  · omega

theorem checkPattern_ok {w : World} {s : Bytes} {x : Val} {pat : Bytes} (h : checkPattern w s x = .ok ())
    (hp : Build.asString w.fo.fltText x = .ok pat) :
    ∃ g, w.regex (pat.takeWhile (· ≠ 0)) = some g ∧ g (s.takeWhile (· ≠ 0)) = true := by
  unfold checkPattern at h
  rw [hp] at h
  dsimp only at h
  split at h
  · cases h
  · next g hg =>
    refine ⟨g, hg, ?_⟩
    have := refuse_ok h
    simpa using this

/-- A value that is accepted is within the requirements. -/
theorem check_meets {w : World} (hp : 64 ≤ w.p) {c : Config} {v : Val} (h : checkRequirements w c v = .ok ()) : Meets w c v := by
  unfold checkRequirements at h
  obtain ⟨_, h1, h2⟩ := Out.bind_eq_ok.1 h
  have hstr : ∀ s, v = .str s → needs c kMinLength (fun l => refuse (decide (cmp w.p (.uint (UInt64.ofNat (size v))) l < 0))) = .ok () ∧
      needs c kMaxLength (fun l => refuse (decide (cmp w.p (.uint (UInt64.ofNat (size v))) l > 0))) = .ok () ∧
      needs c kPattern (checkPattern w s) = .ok () := by
    rintro s rfl
    unfold checkTyped at h1
    obtain ⟨_, h3, h4⟩ := Out.bind_eq_ok.1 h1
    obtain ⟨_, h5, h6⟩ := Out.bind_eq_ok.1 h4
    exact ⟨h3, h5, h6⟩
  have hnum0 : isNumber v = true → needs c kMinimum (fun l => refuse (decide (cmp w.p v l < 0))) = .ok () ∧
      needs c kMaximum (fun l => refuse (decide (cmp w.p v l > 0))) = .ok () := by
    intro ha
    cases v <;> simp only [isNumber, reduceCtorEq] at ha <;> unfold checkTyped at h1 <;>
      (obtain ⟨_, h3, h4⟩ := Out.bind_eq_ok.1 h1; exact ⟨h3, h4⟩)
  have hnum : ∀ a, value v = some a → needs c kMinimum (fun l => refuse (decide (cmp w.p v l < 0))) = .ok () ∧
      needs c kMaximum (fun l => refuse (decide (cmp w.p v l > 0))) = .ok () := by
    intro a ha
    cases v <;> simp only [value, reduceCtorEq] at ha <;> unfold checkTyped at h1 <;>
      (obtain ⟨_, h3, h4⟩ := Out.bind_eq_ok.1 h1; exact ⟨h3, h4⟩)
  constructor
  · rintro s l n rfl hl hn
    have := refuse_ok (needs_ok (hstr s rfl).1 hl)
    have hlt : s.length % 2 ^ 32 < 2 ^ 64 := Nat.lt_of_lt_of_le (Nat.mod_lt _ (by decide)) (by decide)
    exact cmp_not_lt hp (value_size hlt) hn this
  · rintro s l n rfl hl hn
    have := refuse_ok (needs_ok (hstr s rfl).2.1 hl)
    have hlt : s.length % 2 ^ 32 < 2 ^ 64 := Nat.lt_of_lt_of_le (Nat.mod_lt _ (by decide)) (by decide)
    exact cmp_not_gt hp (value_size hlt) hn this
  · rintro s x pat rfl hx hpat
    exact checkPattern_ok (needs_ok (hstr s rfl).2.2 hx) hpat
  · intro a l b ha hl hb
    exact cmp_not_lt hp ha hb (refuse_ok (needs_ok (hnum a ha).1 hl))
  · intro a l b ha hl hb
    exact cmp_not_gt hp ha hb (refuse_ok (needs_ok (hnum a ha).2 hl))
  · intro l hv hl
    simpa using refuse_ok (needs_ok (hnum0 hv).1 hl)
  · intro l hv hl
    simpa using refuse_ok (needs_ok (hnum0 hv).2 hl)
  · intro x hx
    have := needs_ok h2 hx
    unfold checkEnum at this
    split at this
    · next xs =>
      have := refuse_ok this
      simp only [Bool.not_eq_false', List.any_eq_true] at this
      exact ⟨xs, rfl, this⟩
    · cases this

/-! ## Values while parsing -/

/-- Every entry has no value or one its action allows. -/
def Good (w : World) (s : St) : Prop := ∀ k o, s.entry k = some o → o.result = .null ∨ Allowed w o.cfg o.result

theorem appendAll_list {w : World} (hp : 64 ≤ w.p) {c : Config} (xs : List Val) {r : Val}
    (h : r = .null ∨ ∃ ys, r = .list ys ∧ ∀ y ∈ ys, Meets w c y) :
    (appendAll w c r xs).1 = .null ∨ ∃ ys, (appendAll w c r xs).1 = .list ys ∧ ∀ y ∈ ys, Meets w c y := by
  induction xs generalizing r with
  | nil => exact h
  | cons x xs ih =>
    rw [appendAll]
    cases hc : checkRequirements w c x with
    | ub => exact h
    | throw e => exact h
    | ok _ =>
      have hm := check_meets hp hc
      dsimp only
      rcases h with rfl | ⟨ys, rfl, hy⟩
      · exact ih (.inr ⟨[x], rfl, by simpa using hm⟩)
      · refine ih (r := .list (ys ++ [x])) (.inr ⟨ys ++ [x], rfl, ?_⟩)
        intro y hy'
        rcases List.mem_append.1 hy' with h | h
        · exact hy y h
        · simp at h; subst h; exact hm

theorem newResult_allowed {w : World} (hp : 64 ≤ w.p) {o : Opt} {arg r : Val} (h : NewResult w o arg r)
    (ho : o.result = .null ∨ Allowed w o.cfg o.result) : r = .null ∨ Allowed w o.cfg r := by
  cases h with
  | store ha hc => right; unfold Allowed; rw [ha]; exact check_meets hp hc
  | const ha hc => right; unfold Allowed; rw [ha]; exact hc
  | flag b ha => right; unfold Allowed; rcases ha with ha | ha <;> rw [ha] <;> exact ⟨b, rfl⟩
  | append xs ha =>
    unfold Allowed at ho ⊢
    rw [ha] at ho ⊢
    exact appendAll_list hp xs ho
  | count ha hr =>
    unfold Allowed at ho ⊢
    rw [ha] at ho ⊢
    rcases ho with ho | ⟨n, ho⟩
    · rw [ho] at hr; cases hr
    · rw [ho] at hr; cases hr; exact .inr ⟨_, rfl⟩

theorem good_setResult {w : World} {s : St} {id : Int32} {o : Opt} {r : Val} (hs : Good w s) (ho : s.entry id = some o)
    (hr : r = .null ∨ Allowed w o.cfg r) : Good w (setResult s id r) := by
  intro k o' hk
  rw [entry_setResult] at hk
  cases he : s.entry k with
  | none => rw [he] at hk; cases hk
  | some o'' =>
    rw [he] at hk
    simp only [Option.map_some, Option.some.injEq] at hk
    split at hk
    · next e => subst e; rw [ho] at he; cases he; subst hk; exact hr
    · subst hk; exact hs k _ he

theorem good_step {w : World} (hp : 64 ≤ w.p) : Step w (fun s t => Good w s → Good w t) where
  refl := fun _ h => h
  trans := fun h1 h2 h => h2 (h1 h)
  act := by
    intro h s id o arg t x ho hc e hs
    rcases handleOpt_cases hc e with ⟨r, hr, rfl⟩ | ⟨h1, h2⟩
    · exact good_setResult hs ho (newResult_allowed hp hr (hs id o ho))
    · intro k o' hk
      unfold St.entry at hk
      rw [h1] at hk
      exact hs k o' hk

/-! ## The last loop -/

theorem final_loop {w : World} {keys : List Int32} {s t : St} (hn : keys.Nodup)
    (h : forEach (finalizeOpt w) s keys = some (t, .ok ())) :
    (∀ k, k ∉ keys → t.entry k = s.entry k) ∧
    (∀ k o, k ∈ keys → s.entry k = some o → ∃ s' r, r = withDefault s' o ∧ Shape s s' ∧ checkResult w o.cfg r = .ok () ∧
      t.entry k = some { o with result := r }) := by
  induction keys generalizing s with
  | nil => cases h; exact ⟨fun _ _ => rfl, nofun⟩
  | cons a keys ih =>
    simp only [List.nodup_cons] at hn
    rw [forEach] at h
    obtain ⟨s1, h1, h2⟩ := andThen_ok h
    obtain ⟨h3, h4⟩ := ih hn.2 h2
    have hne : ∀ k, k ≠ a → s1.entry k = s.entry k := by
      intro k hk
      rcases finalizeOpt_cases h1 with ⟨_, rfl, _⟩ | ⟨o, _, rfl, _⟩
      · rfl
      · rw [entry_setResult]
        cases s.entry k <;> simp [hk]
    have hsh : Shape s s1 := by
      rcases finalizeOpt_cases h1 with ⟨_, rfl, _⟩ | ⟨o, _, rfl, _⟩
      · exact Shape.refl _
      · exact shape_setResult ..
    refine ⟨fun k hk => ?_, fun k o hk ho => ?_⟩
    · simp only [List.mem_cons, not_or] at hk
      rw [h3 k hk.2, hne k hk.1]
    · by_cases e : k = a
      · subst e
        rcases finalizeOpt_cases h1 with ⟨h5, _⟩ | ⟨o', h5, rfl, h6⟩
        · rw [ho] at h5; cases h5
        · rw [ho] at h5; cases h5
          refine ⟨s, _, rfl, Shape.refl s, h6.symm, ?_⟩
          rw [h3 k hn.1, entry_setResult, ho]
          simp
      · rcases List.mem_cons.1 hk with hk | hk
        · exact absurd hk e
        · rw [← hne k e] at ho
          obtain ⟨s', r, h5, h6, h7⟩ := h4 k o hk ho
          exact ⟨s', r, h5, hsh.trans h6, h7⟩

theorem withDefault_cases (s : St) (o : Opt) :
    withDefault s o = o.result ∨ (o.result = .null ∧ IsDefault o.cfg (withDefault s o)) := by
  unfold withDefault
  split
  · next hr =>
    split
    · exact .inl hr.symm
    · next d hd =>
      split
      · cases ha : o.cfg.action <;> first
          | exact .inl hr.symm
          | exact .inr ⟨hr, d, hd, by simp [ha]⟩
      · exact .inl hr.symm
  · exact .inl rfl

/-! ## The states of a call that returns -/

/-- What the state at the end says about the entries registered before. -/
structure Done (w : World) (s t : St) (v : Val) : Prop where
  ready : Ready s.reg
  groups : t.groups = s.groups
  kept : ∀ k o, s.entry k = some o → ∃ r, t.entry k = some { o with result := r }
  back : ∀ k o, t.entry k = some o → (∃ r, s.entry k = some { o with result := r }) ∨ hasResult o.cfg.action = false
  allowed : ∀ k o, t.entry k = some o → o.result = .null ∨ Allowed w o.cfg o.result ∨ IsDefault o.cfg o.result
  checked : ∀ k o, t.entry k = some o → checkResult w o.cfg o.result = .ok ()
  grouped : finalizeGroups t t.groups = .ok ()
  nodup : (t.reg.optionMap.map (·.1)).Nodup
  nonempty : ∀ k o, t.entry k = some o → o.path ≠ []
  form : formResult t.reg.optionMap (.map []) = .ok v

theorem mem_find {m : List (Int32 × Opt)} (hn : (m.map (·.1)).Nodup) {k : Int32} {o : Opt} (h : (k, o) ∈ m) : find m k = some o := by
  induction m with
  | nil => cases h
  | cons x m ih =>
    obtain ⟨k', o'⟩ := x
    simp only [List.map_cons, List.nodup_cons] at hn
    rw [find]
    rcases List.mem_cons.1 h with e | e
    · cases e; simp
    · rw [if_neg]
      · exact ih hn.2 e
      · rintro rfl; exact hn.1 (List.mem_map_of_mem e)

theorem entry_key {s : St} {k : Int32} {o : Opt} (h : s.entry k = some o) : k ∈ s.reg.optionMap.map (·.1) :=
  List.mem_map_of_mem (f := (·.1)) (find_mem h)

theorem parse_done {w : World} (hp : 64 ≤ w.p) {fuel : Nat} {cs : List Call} {s t : St} {es : List Event} {rest : List Text} {v : Val}
    (hs : Reached cs s.reg) (h : parse w fuel s es rest = some (.returned t v)) : Done w s t v := by
  obtain ⟨s0, s1, s2, s3, st⟩ := parse_stages h
  have hr := reached_ready hs
  have hh := addHelp_withHelp hr st.help
  obtain ⟨h1, h2, h3, h4⟩ := st.shapes
  have h03 := (h1.trans h2).trans h3
  have h0t := h03.trans h4
  have good0 : Good w s0 := fun k o hk => .inl (hh.ready.null k o hk)
  have good1 : Good w s1 := forEach_keeps (good_step hp) (fun _ e => initOne_keeps (good_step hp)
    (fun ho ha hg => good_setResult hg ho (.inr (by unfold Allowed; rw [ha]; exact ⟨0, rfl⟩))) e) st.init good0
  have good2 : Good w s2 := events_keeps (good_step hp) st.opts good1
  have good3 : Good w s3 := takeArgs_keeps (good_step hp) st.args good2
  have hk0 : (s0.reg.optionMap.map (·.1)).Nodup := hh.ready.nodup
  have hk3 : (s3.reg.optionMap.map (·.1)).Nodup := by rw [h03.keys]; exact hk0
  obtain ⟨_, hf⟩ := final_loop hk3 st.final
  refine ⟨hr, ?_, ?_, ?_, ?_, ?_, st.groups, ?_, ?_, st.form⟩
  · rw [h0t.groups, hh.groups]
  · intro k o ho
    exact h0t.forward (hh.kept k o ho)
  · intro k o ho
    obtain ⟨r, h5⟩ := h0t.back ho
    rcases hh.added k _ h5 with h6 | ⟨_, h6, _⟩
    · exact .inl ⟨r, h6⟩
    · right
      dsimp only at h6
      rcases h6 with h6 | h6 <;> rw [h6] <;> rfl
  · intro k o ho
    obtain ⟨r, h5⟩ := h4.back ho
    obtain ⟨s', r', h6, _, h7, h8⟩ := hf k _ (entry_key h5) h5
    rw [ho] at h8
    simp only [Option.some.injEq] at h8
    have h9 : o.result = r' := by rw [h8]
    rcases withDefault_cases s' { o with result := r } with h10 | ⟨_, h10⟩
    · rw [h9, h6, h10]
      rcases good3 k _ h5 with h11 | h11
      · exact .inl h11
      · exact .inr (.inl h11)
    · rw [h9, h6]; exact .inr (.inr h10)
  · intro k o ho
    obtain ⟨r, h5⟩ := h4.back ho
    obtain ⟨s', r', h6, _, h7, h8⟩ := hf k _ (entry_key h5) h5
    rw [ho] at h8
    simp only [Option.some.injEq] at h8
    have h9 : o.result = r' := by rw [h8]
    rw [h9]; exact h7
  · rw [h0t.keys]; exact hk0
  · intro k o ho
    obtain ⟨r, h5⟩ := h0t.back ho
    exact hh.ready.nonempty k { o with result := r } h5

theorem not_allowed_of_noResult {w : World} {c : Config} {r : Val} (h : hasResult c.action = false) : ¬ Allowed w c r ∧ ¬ IsDefault c r := by
  constructor
  · unfold Allowed
    cases ha : c.action <;> rw [ha] at h <;> simp_all [hasResult]
  · rintro ⟨d, _, h'⟩
    cases ha : c.action <;> rw [ha] at h h' <;> simp_all [hasResult]

theorem Done.contributes {w s t v} (h : Done w s t v) {k : Int32} {o : Opt} (ho : t.entry k = some o) (hn : o.result ≠ .null) :
    contributes o := by
  refine ⟨?_, hn⟩
  cases ha : hasResult o.cfg.action with
  | true => rfl
  | false =>
    rcases h.allowed k o ho with h1 | h1 | h1
    · exact absurd h1 hn
    · exact absurd h1 (not_allowed_of_noResult ha).1
    · exact absurd h1 (not_allowed_of_noResult (w := w) ha).2

theorem Done.apart {w s t v} (h : Done w s t v) (hd : PathsApart s) {k k' : Int32} {o o' : Opt} (ho : t.entry k = some o) (ho' : t.entry k' = some o')
    (hne : k ≠ k') (hc : Args.contributes o) (hr : hasResult o'.cfg.action = true) : Diverge o.path o'.path := by
  rcases h.back k o ho with ⟨r, h1⟩ | h1
  · rcases h.back k' o' ho' with ⟨r', h2⟩ | h2
    · exact hd k k' { o with result := r } { o' with result := r' } h1 h2 hne hc.1 hr
    · rw [hr] at h2; cases h2
  · rw [hc.1] at h1; cases h1

/-- The value of an entry in the result. -/
theorem Done.value {w s t v} (h : Done w s t v) (hd : PathsApart s) {k : Int32} {o : Opt} (ho : t.entry k = some o) (hn : o.result ≠ .null) :
    getPath? v o.path = some o.result := by
  refine formResult_value h.form h.nodup (find_mem ho) (h.contributes ho hn) ?_
  intro x hx hne hc
  exact h.apart hd (mem_find h.nodup hx) ho hne hc (h.contributes ho hn).1

theorem getPath?_empty {q : VPath} (h : q ≠ []) : getPath? (.map []) q = none := by
  cases q with
  | nil => exact absurd rfl h
  | cons e q => cases e <;> rfl

/-- An entry without value has none in the result, or a null that fills a list up. -/
theorem Done.noValue {w s t v} (h : Done w s t v) (hd : PathsApart s) {k : Int32} {o : Opt} (ho : t.entry k = some o) (hn : o.result = .null)
    (hr : hasResult o.cfg.action = true) : getPath? v o.path = none ∨ getPath? v o.path = some .null := by
  have := formResult_frame h.form (q := o.path) (fun x hx hc => by
    refine h.apart hd (mem_find h.nodup hx) ho ?_ hc hr
    rintro rfl
    have := mem_find h.nodup hx
    unfold St.entry at ho
    rw [this] at ho
    cases ho
    exact hc.2 hn)
  rw [getPath?_empty (h.nonempty k o ho)] at this
  rcases this with h1 | ⟨_, h1⟩
  · exact .inl h1
  · exact .inr h1

/-- An entry has a value in the result exactly if it has one at the end. -/
theorem Done.hasValue {w s t v} (h : Done w s t v) (hd : PathsApart s) {k : Int32} {o : Opt} (ho : t.entry k = some o)
    (hr : hasResult o.cfg.action = true) (x : Val) : HasValue v o.path x ↔ o.result = x ∧ x ≠ .null := by
  by_cases hn : o.result = .null
  · constructor
    · rintro ⟨h1, h2⟩
      rcases h.noValue hd ho hn hr with h3 | h3
      · rw [h1] at h3; cases h3
      · rw [h1] at h3; cases h3; exact absurd rfl h2
    · rintro ⟨h1, h2⟩; exact absurd (h1 ▸ hn) h2
  · have := h.value hd ho hn
    constructor
    · rintro ⟨h1, h2⟩; rw [h1] at this; cases this; exact ⟨rfl, h2⟩
    · rintro ⟨rfl, h2⟩; exact ⟨this, h2⟩

/-! ## Theorems -/

/-- C56.  Whenever `Parse` returns, every required option and argument has a value in the result. -/
theorem required_present_partial {w : World} (hp : 64 ≤ w.p) {fuel : Nat} {cs : List Call} {s t : St} {es : List Event} {rest : List Text}
    {v : Val} (hs : Reached cs s.reg) (hd : PathsApart s) (h : parse w fuel s es rest = some (.returned t v))
    {k : Int32} {o : Opt} (ho : s.entry k = some o) (hreq : o.cfg.required = true) : ∃ x, HasValue v o.path x := by
  have d := parse_done hp hs h
  obtain ⟨r, h1⟩ := d.kept k o ho
  have h2 := d.checked k _ h1
  have hn : r ≠ .null := by
    rintro rfl
    simp [checkResult, hreq, refuse] at h2
  exact ⟨r, d.value hd h1 hn, hn⟩

/-- C56.  A required option that cannot have a value, such as one that reads a configuration file, makes every
call end without returning. -/
theorem required_config_never_returns {w : World} (hp : 64 ≤ w.p) {fuel : Nat} {cs : List Call} {s : St} {es : List Event} {rest : List Text}
    (hs : Reached cs s.reg) {k : Int32} {o : Opt} (ho : s.entry k = some o) (hreq : o.cfg.required = true)
    (ha : hasResult o.cfg.action = false) (t : St) (v : Val) : parse w fuel s es rest ≠ some (.returned t v) := by
  intro h
  have d := parse_done hp hs h
  obtain ⟨r, h1⟩ := d.kept k o ho
  have h2 := d.checked k _ h1
  rcases d.allowed k _ h1 with h3 | h3 | h3
  · dsimp only at h3; subst h3; simp [checkResult, hreq, refuse] at h2
  · exact (not_allowed_of_noResult ha).1 h3
  · exact (not_allowed_of_noResult (w := w) ha).2 h3

theorem finalizeGroups_ok {s : St} {gs : List (Bytes × Group)} (h : finalizeGroups s gs = .ok ()) : ∀ g ∈ gs, finalizeGroup s g.2 = .ok () := by
  induction gs with
  | nil => nofun
  | cons g gs ih =>
    rw [finalizeGroups] at h
    obtain ⟨_, h1, h2⟩ := Out.bind_eq_ok.1 h
    intro g' hg
    rcases List.mem_cons.1 hg with rfl | hg
    · exact h1
    · exact ih h2 g' hg

theorem given_iff {s : St} {k : Int32} {o : Opt} (h : s.entry k = some o) : given s k = true ↔ o.result ≠ .null := by
  unfold given
  rw [h]
  cases hr : o.result <;> simp [hr]

/-- C56.  Whenever `Parse` returns, at most one member of a mutually exclusive group has a value. -/
theorem exclusive_partial {w : World} (hp : 64 ≤ w.p) {fuel : Nat} {cs : List Call} {s t : St} {es : List Event} {rest : List Text}
    {v : Val} (hs : Reached cs s.reg) (hd : PathsApart s) (h : parse w fuel s es rest = some (.returned t v))
    {n : Bytes} {g : Group} (hg : (n, g) ∈ s.groups) (hx : g.exclusive = true) {a b : Int32} {oa ob : Opt} (hab : a ≠ b)
    (ha : a ∈ g.members) (hb : b ∈ g.members) (hoa : s.entry a = some oa) (hob : s.entry b = some ob)
    (hra : hasResult oa.cfg.action = true) (hrb : hasResult ob.cfg.action = true) {x y : Val} :
    ¬ (HasValue v oa.path x ∧ HasValue v ob.path y) := by
  have d := parse_done hp hs h
  rintro ⟨h1, h2⟩
  obtain ⟨ra, h3⟩ := d.kept a oa hoa
  obtain ⟨rb, h4⟩ := d.kept b ob hob
  obtain ⟨h5, h6⟩ := (d.hasValue hd h3 hra x).1 h1
  obtain ⟨h7, h8⟩ := (d.hasValue hd h4 hrb y).1 h2
  dsimp only at h5 h7
  subst h5 h7
  have h9 := finalizeGroups_ok d.grouped (n, g) (by rw [d.groups]; exact hg)
  unfold finalizeGroup at h9
  rw [if_pos hx] at h9
  have h10 : ¬ (g.members.filter (given t)).length > 1 := by
    intro e; rw [if_pos e] at h9; cases h9
  have ha' : a ∈ g.members.filter (given t) := List.mem_filter.2 ⟨ha, (given_iff h3).2 h6⟩
  have hb' : b ∈ g.members.filter (given t) := List.mem_filter.2 ⟨hb, (given_iff h4).2 h8⟩
  match hl : g.members.filter (given t) with
  | [] => rw [hl] at ha'; cases ha'
  | [c] =>
    rw [hl] at ha' hb'
    simp only [List.mem_singleton] at ha' hb'
    exact hab (ha'.trans hb'.symm)
  | c :: c' :: l => rw [hl] at h10; simp at h10

/-- C56.  Whenever `Parse` returns, some member of a required and mutually exclusive group has a value. -/
theorem required_group_partial {w : World} (hp : 64 ≤ w.p) {fuel : Nat} {cs : List Call} {s t : St} {es : List Event} {rest : List Text}
    {v : Val} (hs : Reached cs s.reg) (hd : PathsApart s) (h : parse w fuel s es rest = some (.returned t v))
    {n : Bytes} {g : Group} (hg : (n, g) ∈ s.groups) (hx : g.exclusive = true) (hreq : g.required = true)
    (hm : ∀ a ∈ g.members, (s.entry a).isSome) :
    ∃ a o x, a ∈ g.members ∧ s.entry a = some o ∧ HasValue v o.path x := by
  have d := parse_done hp hs h
  have h9 := finalizeGroups_ok d.grouped (n, g) (by rw [d.groups]; exact hg)
  unfold finalizeGroup at h9
  rw [if_pos hx] at h9
  split at h9
  · cases h9
  · have := refuse_ok h9
    rw [hreq, Bool.true_and] at this
    match hl : g.members.filter (given t) with
    | [] => rw [hl] at this; cases this
    | a :: l =>
      have ha : a ∈ g.members.filter (given t) := by rw [hl]; simp
      obtain ⟨h1, h2⟩ := List.mem_filter.1 ha
      obtain ⟨o, ho⟩ := Option.isSome_iff_exists.1 (hm a h1)
      obtain ⟨r, h3⟩ := d.kept a o ho
      have h4 := (given_iff h3).1 h2
      exact ⟨a, o, r, h1, ho, d.value hd h3 h4, h4⟩

/-- C57.  Whenever `Parse` returns, the value of every option and argument is one its action allows (within the
requirements set on it), or its default. -/
theorem requirements_hold_partial {w : World} (hp : 64 ≤ w.p) {fuel : Nat} {cs : List Call} {s t : St} {es : List Event} {rest : List Text}
    {v : Val} (hs : Reached cs s.reg) (hd : PathsApart s) (h : parse w fuel s es rest = some (.returned t v))
    {k : Int32} {o : Opt} (ho : s.entry k = some o) (hr : hasResult o.cfg.action = true) {x : Val} (hx : HasValue v o.path x) :
    Allowed w o.cfg x ∨ IsDefault o.cfg x := by
  have d := parse_done hp hs h
  obtain ⟨r, h1⟩ := d.kept k o ho
  obtain ⟨h2, h3⟩ := (d.hasValue hd h1 hr x).1 hx
  dsimp only at h2
  subst h2
  rcases d.allowed k _ h1 with h4 | h4
  · exact absurd h4 h3
  · exact h4

/-- C60.  Nothing is in the result but the values of the entries: what a path that leads elsewhere finds is
nothing, or a null that fills a list up. -/
theorem nothing_else {w : World} (hp : 64 ≤ w.p) {fuel : Nat} {cs : List Call} {s t : St} {es : List Event} {rest : List Text}
    {v : Val} (hs : Reached cs s.reg) (h : parse w fuel s es rest = some (.returned t v)) {q : VPath} (hq : q ≠ [])
    (hd : ∀ k o, s.entry k = some o → hasResult o.cfg.action = true → Diverge o.path q) :
    getPath? v q = none ∨ getPath? v q = some .null := by
  have d := parse_done hp hs h
  have := formResult_frame d.form (q := q) (fun x hx hc => by
    rcases d.back x.1 x.2 (mem_find d.nodup hx) with ⟨r, h1⟩ | h1
    · exact hd x.1 { x.2 with result := r } h1 hc.1
    · rw [hc.1] at h1; cases h1)
  rw [getPath?_empty hq] at this
  rcases this with h1 | ⟨_, h1⟩
  · exact .inl h1
  · exact .inr h1

end Verif.Args
