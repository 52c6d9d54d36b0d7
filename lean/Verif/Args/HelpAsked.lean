import Verif.Args.HelpProps
import Verif.Args.DescProps
/-!
# C107: asking for the help
-/

namespace Verif.Args
open Verif JsonDrv Schema

variable {w : World} {s : St}

/-! ## The help does not depend on the command line -/

/-- What a command line leaves as it is, and what it cannot take back. -/
structure Going (s t : St) : Prop where
  shape : Shape s t
  options : t.reg.options = s.reg.options
  help : s.printHelp = true → t.printHelp = true
  adv : s.printAdv = true → t.printAdv = true

theorem going_step (w : World) : Step w Going where
  refl := fun s => ⟨.refl s, rfl, id, id⟩
  trans := fun h h' => ⟨h.shape.trans h'.shape, h'.options.trans h.options, fun x => h'.help (h.help x), fun x => h'.adv (h.adv x)⟩
  act := by
    intro h s id o arg t x ho hc e
    refine ⟨(shape_step w).act ho hc e, ?_, ?_, ?_⟩
    · rcases handleOpt_cases hc e with ⟨r, _, rfl⟩ | ⟨h1, _⟩
      · rfl
      · rw [h1]
    all_goals
      intro hp
      unfold handleOpt at e
      cases ha : o.cfg.action <;> rw [ha] at e hc <;> dsimp only at e
      case store => rcases store_cases e with rfl | ⟨r, _, rfl⟩ <;> exact hp
      case storeConst => rcases store_cases e with rfl | ⟨r, _, rfl⟩ <;> exact hp
      case storeTrue => rcases store_cases e with rfl | ⟨r, _, rfl⟩ <;> exact hp
      case storeFalse => rcases store_cases e with rfl | ⟨r, _, rfl⟩ <;> exact hp
      case count => rcases store_cases e with rfl | ⟨r, _, rfl⟩ <;> exact hp
      all_goals first
        | (cases hc; done)
        | (cases e; first | exact hp | rfl)

theorem going_result (s : St) (i : Int32) (v : Val) : Going s (setResult s i v) := ⟨shape_setResult s i v, rfl, id, id⟩

theorem going_init {fuel : Nat} {is : List Int32} {t : St} {x : Out Unit} (e : forEach (initOne w fuel) s is = some (t, x)) : Going s t :=
  forEach_keeps (going_step w) (fun _ e => initOne_keeps (going_step w) (fun _ _ => going_result _ _ _) e) e

theorem going_finalize {is : List Int32} {t : St} {x : Out Unit} (e : forEach (finalizeOpt w) s is = some (t, x)) : Going s t := by
  refine forEach_keeps (going_step w) (fun {s a t x} _ e => ?_) e
  unfold finalizeOpt at e
  split at e
  · exact id_keeps (going_step w) e
  · cases e; exact going_result _ _ _

theorem going_rest {fuel : Nat} {rest : List Text} {t : St} {x : Out Unit} (e : afterOptions w fuel s rest = some (t, x)) : Going s t := by
  unfold afterOptions at e
  split at e
  · refine andThen_keeps (going_step w) (fun e => takeArgs_keeps (going_step w) e) (fun e => ?_) e
    refine andThen_keeps (going_step w) (fun e => going_finalize e) (fun e => ?_) e
    exact id_keeps (going_step w) e
  · exact id_keeps (going_step w) e
  · exact id_keeps (going_step w) e

/-- A piece without the values. -/
def Piece.strip : Piece → Piece
  | .text t => .text t
  | .usage o => .usage o.strip
  | .entry o => .entry o.strip

theorem render_strip (p : Piece) : p.strip.render w = p.render w := by cases p <;> rfl

theorem renderAll_strip (ps : List Piece) : renderAll w (ps.map Piece.strip) = renderAll w ps := by
  induction ps with
  | nil => rfl
  | cons p ps ih => simp only [List.map_cons, renderAll, render_strip, ih]

theorem filter_strip (f : Opt → Bool) (hf : ∀ o, f o.strip = f o) (os : List Opt) : (os.map Opt.strip).filter f = (os.filter f).map Opt.strip := by
  rw [List.filter_map]
  congr 2
  funext o
  exact hf o

theorem entriesIf_strip (adv : Bool) (os : List Opt) : entriesIf adv (os.map Opt.strip) = (entriesIf adv os).map Piece.strip := by
  unfold entriesIf
  rw [filter_strip _ (fun o => rfl), List.map_map, List.map_map]
  rfl

theorem layout_strip (P : Parser) (adv : Bool) (as_ os : List Opt) :
    layout P adv (as_.map Opt.strip) (os.map Opt.strip) = (layout P adv as_ os).map Piece.strip := by
  have hg : ∀ e, groupPieces P.st adv (os.map Opt.strip) e = (groupPieces P.st adv os e).map Piece.strip := by
    intro e
    unfold groupPieces
    rw [filter_strip (under P.st e.1) (fun o => rfl), List.isEmpty_map]
    split
    · rfl
    · rw [entriesIf_strip]; rfl
  unfold layout
  simp only [List.map_append, List.map_map, List.map_cons, List.map_nil, List.map_flatMap, filter_strip (loose P.st) (fun o => rfl), entriesIf_strip]
  have h1 : ∀ l : List Opt, l.map Opt.strip = [] ↔ l = [] := fun l => List.map_eq_nil_iff
  simp only [ne_eq, h1]
  rw [show groupPieces P.st adv (os.map Opt.strip) = _ from funext hg]
  rfl

theorem entriesOf_shape {s t : St} (h : Shape s t) {is : List Int32} {os : List Opt} (ho : entriesOf s is = .ok os) :
    ∃ os', entriesOf t is = .ok os' ∧ os'.map Opt.strip = os.map Opt.strip := by
  induction is generalizing os with
  | nil => cases ho; exact ⟨[], rfl, rfl⟩
  | cons i is ih =>
    unfold entriesOf at ho
    split at ho
    · cases ho
    · rename_i o he
      obtain ⟨r, hr, rfl⟩ := out_map_ok ho
      obtain ⟨os', h1, h2⟩ := ih hr
      obtain ⟨v, hv⟩ := h.forward he
      exact ⟨_, by unfold entriesOf; rw [hv, h1]; rfl, by simp [h2, Opt.strip]⟩

theorem grouped_shape {s t : St} (h : Shape s t) (hg : Grouped s) : Grouped t := by
  intro k o ho n hn
  rw [h.groups]
  have : (k, o.strip) ∈ t.reg.optionMap.map fun x => (x.1, x.2.strip) := List.mem_map.2 ⟨_, ho, rfl⟩
  rw [h.entries] at this
  obtain ⟨⟨k', o'⟩, hm, e⟩ := List.mem_map.1 this
  have e1 : o'.cfg = o.cfg := by
    have := congrArg (fun x : Int32 × Opt => x.2.cfg) e
    exact this
  exact hg k' o' hm n (by rw [e1]; exact hn)

/-- What the help shows stays as it is. -/
theorem help_same {s t : St} (h : Going s t) (hs : AMap.Sorted s.groups) (hg : Grouped s) {as_ os : List Opt}
    (ha : entriesOf s s.reg.arguments = .ok as_) (ho : entriesOf s s.reg.options = .ok os) (a b c : Bytes) (adv : Bool) :
    helpText w ⟨t, a, b, c⟩ adv = helpText w ⟨s, a, b, c⟩ adv := by
  obtain ⟨as', h1, h2⟩ := entriesOf_shape h.shape ha
  obtain ⟨os', h3, h4⟩ := entriesOf_shape h.shape ho
  rw [help_is_layout (P := ⟨s, a, b, c⟩) hs hg ha ho,
    help_is_layout (P := ⟨t, a, b, c⟩) (by show AMap.Sorted t.groups; rw [h.shape.groups]; exact hs) (grouped_shape h.shape hg)
      (as_ := as') (os := os') (by rw [show (Parser.mk t a b c).st = t from rfl, h.shape.arguments]; exact h1) (by rw [show (Parser.mk t a b c).st = t from rfl, h.options]; exact h3),
    ← renderAll_strip, ← layout_strip, h2, h4, layout_strip, renderAll_strip]
  have e1 : loose t = loose s := by unfold loose heads; rw [h.shape.groups]
  have e2 : groupPieces t = groupPieces s := by unfold groupPieces under heads; rw [h.shape.groups]
  unfold layout
  rw [show (Parser.mk t a b c).st = t from rfl, e1, e2, h.shape.groups]

/-! ## The help options -/

theorem build_one {P : Parser} {c : PCall} {cs : List PCall} (h : (c.run w P).2 ≠ .ub) : build w P (c :: cs) = build w (c.run w P).1 cs := by
  conv => lhs; unfold build
  split
  · rename_i e; exact absurd e h
  · rfl

theorem build_more {P Q : Parser} {cs ds : List PCall} (h : build w P cs = some Q) : build w P (cs ++ ds) = build w Q ds := by
  induction cs generalizing P with
  | nil => cases h; rfl
  | cons c cs ih =>
    have hne : (c.run w P).2 ≠ .ub := by
      intro e
      unfold build at h
      rw [e] at h; cases h
    rw [build_one hne] at h
    rw [List.cons_append, build_one hne]
    exact ih h

/-- Adding the help options is a matter of calls the program could have made. -/
theorem addHelp_calls {P : Parser} {s0 : St} (h : addHelpOptions P.st = (s0, .ok ())) :
    ∃ cs, (∀ c ∈ cs, PCall.proper c ∧ PCall.showable c) ∧ build w P cs = some { P with st := s0 } := by
  unfold addHelpOptions at h
  split at h
  · let c1 : PCall := .conflictResolution true
    let c2 : PCall := .addOption helpPath 104 helpLong helpSays .help
    let c3 : PCall := .addOption advPath 0 advLong advSays .advHelp
    let c4 : PCall := .conflictResolution P.st.reg.resolve
    have p1 : PCall.proper c1 ∧ PCall.showable c1 := ⟨trivial, trivial⟩
    have p2 : PCall.proper c2 ∧ PCall.showable c2 := ⟨by show (104 : Int32) ≤ 255; decide, trivial⟩
    have p3 : PCall.proper c3 ∧ PCall.showable c3 := ⟨by show (0 : Int32) ≤ 255; decide, trivial⟩
    have p4 : PCall.proper c4 ∧ PCall.showable c4 := ⟨trivial, trivial⟩
    have hadd : ∀ (Q : Parser) k sh l hp a, (PCall.addOption k sh l hp a).run w Q =
        ({ Q with st := { Q.st with reg := (addOption Q.st.reg k sh l hp a).1 } }, (addOption Q.st.reg k sh l hp a).2 >>= fun _ => .ok ()) := by
      intro Q k sh l hp a
      show ({ Q with st := (onReg Q.st _ _).1 }, (onReg Q.st _ _).2) = _
      unfold onReg
      cases h : addOption Q.st.reg k sh l hp a with
      | mk t r => cases r <;> rfl
    dsimp only at h
    have e1 : ∀ cs, build w P (c1 :: cs) = build w { P with st := { P.st with reg := { P.st.reg with resolve := true } } } cs := fun cs =>
      build_one (c := c1) (by intro h; cases h)
    split at h
    · cases h
    · rename_i x hx
      cases h
      refine ⟨[c1, c2, c4], by simp [p1, p2, p4], ?_⟩
      rw [e1, build_one (by rw [hadd]; dsimp only; rw [hx]; intro h; cases h), hadd, build_one (by intro h; cases h)]
      rfl
    · rename_i i hi
      split at h
      · split at h
        · cases h
        · rename_i hub
          cases h
          refine ⟨[c1, c2, c3, c4], by simp [p1, p2, p3, p4], ?_⟩
          rw [e1, build_one (by rw [hadd]; dsimp only; rw [hi]; intro h; cases h), hadd, build_one (by
            rw [hadd]; dsimp only
            intro h
            apply hub
            revert h
            cases (addOption _ advPath 0 advLong advSays .advHelp).2 <;> intro h <;> first | rfl | cases h), hadd, build_one (by intro h; cases h)]
          rfl
      · cases h
        refine ⟨[c1, c2, c4], by simp [p1, p2, p4], ?_⟩
        rw [e1, build_one (by rw [hadd]; dsimp only; rw [hi]; intro h; cases h), hadd, build_one (by intro h; cases h)]
        rfl
  · cases h; exact ⟨[], nofun, rfl⟩

/-- With the help options a parser is one the program could have built. -/
theorem Built.withHelp {P : Parser} (h : Built w P) {s0 : St} (h0 : addHelpOptions P.st = (s0, .ok ())) : Built w { P with st := s0 } := by
  obtain ⟨t, b, cs, hc, hb⟩ := h
  obtain ⟨ds, hd, hb'⟩ := addHelp_calls (w := w) h0
  refine ⟨t, b, cs ++ ds, fun c hm => ?_, by rw [build_more hb]; exact hb'⟩
  rcases List.mem_append.1 hm with h | h
  · exact hc c h
  · exact (hd c h).1

/-- What `Parse` has done before it reads the command line: the help options, the counters and the environment. -/
structure Opened (w : World) (fuel : Nat) (P : Parser) (s0 s1 : St) : Prop where
  help : addHelpOptions P.st = (s0, .ok ())
  init : forEach (initOne w fuel) s0 (s0.reg.optionMap.map (·.1)) = some (s1, .ok ())

theorem help_same_built {P : Parser} (h : Built w P) {t : St} (hg : Going P.st t) (adv : Bool) : helpText w { P with st := t } adv = helpText w P adv := by
  have hs := h.sound
  obtain ⟨as_, h1, _⟩ := entriesOf_ok (s := P.st) (is := P.st.reg.arguments) fun i hi => hs.reg.known i (List.mem_append_right _ hi)
  obtain ⟨os, h3, _⟩ := entriesOf_ok (s := P.st) (is := P.st.reg.options) fun i hi => hs.reg.known i (List.mem_append_left _ hi)
  exact help_same hg hs.names h.grouped h1 h3 _ _ _ adv

/-- **C107**: the help does not depend on the command line or the environment: what it shows while the command line is read is what
it shows before, with the help options added. -/
theorem help_text_fixed {fuel : Nat} {P : Parser} (h : Built w P) {s0 s1 : St} (ho : Opened w fuel P s0 s1) {es : List Event} {t : St} {x : Out Bool}
    (he : events w fuel s1 es = some (t, x)) (adv : Bool) : helpText w { P with st := t } adv = helpText w { P with st := s0 } adv :=
  help_same_built (h.withHelp ho.help) ((going_step w).trans (going_init ho.init) (events_keeps (going_step w) he)) adv

theorem helpEnd_same {P : Parser} (h : Built w P) {t : St} (hg : Going P.st t) (adv : Bool) : helpEnd w t adv = helpEnd w P.st adv := by
  have hs := h.sound
  obtain ⟨as_, h1, _⟩ := entriesOf_ok (s := P.st) (is := P.st.reg.arguments) fun i hi => hs.reg.known i (List.mem_append_right _ hi)
  obtain ⟨os, h3, _⟩ := entriesOf_ok (s := P.st) (is := P.st.reg.options) fun i hi => hs.reg.known i (List.mem_append_left _ hi)
  unfold helpEnd helpRuns
  rw [help_same hg hs.names h.grouped h1 h3 _ _ _ adv]

theorem events_split {fuel : Nat} {s s2 : St} {pre post : List Event} (h : events w fuel s pre = some (s2, .ok true)) :
    events w fuel s (pre ++ post) = events w fuel s2 post := by
  induction pre generalizing s with
  | nil => cases h; rfl
  | cons e es ih =>
    rw [List.cons_append]
    unfold events at h
    conv => lhs; unfold events
    split
    · rename_i hc; rw [if_pos hc] at h; cases h
    · rename_i hc
      rw [if_neg hc] at h
      cases hh : handleOption w fuel s e.id e.arg with
      | none => rw [hh] at h; cases h
      | some r =>
        obtain ⟨s', r⟩ := r
        rw [hh] at h
        cases r with
        | ok _ => exact ih h
        | throw x => cases h
        | ub => cases h

/-- How it ends once the help was asked for. -/
def Helped (w : World) (s0 : St) (x : End) : Prop := x = .ub ∨ x = helpEnd w s0 true ∨ x = helpEnd w s0 false

theorem printed_helped {P : Parser} (h : Built w P) {t : St} (hg : Going P.st t) (hp : t.printHelp = true ∨ t.printAdv = true) (o : End) :
    Helped w P.st (printed w t o) := by
  unfold printed
  split
  · exact .inr (.inl (helpEnd_same h hg true))
  · split
    · exact .inr (.inr (helpEnd_same h hg false))
    · rcases hp with hp | hp <;> contradiction

theorem report_helped {P : Parser} (h : Built w P) {s : St} (hg : Going P.st s) (hp : s.printHelp = true ∨ s.printAdv = true) {r : Res}
    (hr : ∀ t x, r = some (t, x) → Going s t) {x : End} (hx : report w r = some x) : Helped w P.st x := by
  unfold report at hx
  split at hx
  · cases hx
  · rename_i t u
    cases hx
    have h1 := hr _ _ rfl
    exact printed_helped h ((going_step w).trans hg h1) (hp.imp h1.help h1.adv) _
  · rename_i t u
    cases hx
    have h1 := hr _ _ rfl
    exact printed_helped h ((going_step w).trans hg h1) (hp.imp h1.help h1.adv) _
  · cases hx; exact .inl rfl

theorem after_helped {P : Parser} (h : Built w P) {s : St} (hg : Going P.st s) (hp : s.printHelp = true ∨ s.printAdv = true) {fuel : Nat}
    {es : List Event} {rest : List Text} {x : End} (hx : afterEvents w fuel rest (events w fuel s es) = some x) : Helped w P.st x := by
  cases he : events w fuel s es with
  | none => rw [he] at hx; cases hx
  | some r =>
    obtain ⟨t, r⟩ := r
    have h1 : Going s t := events_keeps (going_step w) he
    have h2 := (going_step w).trans hg h1
    have h3 := hp.imp h1.help h1.adv
    rw [he] at hx
    unfold afterEvents at hx
    split at hx
    · rename_i e; cases e
    · rename_i e; cases e; exact report_helped h h2 h3 (fun _ _ e => going_rest e) hx
    · rename_i e
      cases e
      split at hx
      · rename_i hr
        cases hx
        refine .inr (.inr ?_)
        rw [← helpEnd_same h h2 false]
        unfold helpEnd; rw [hr]
      · exact report_helped h h2 h3 (fun _ _ e => by cases e; exact (going_step w).refl _) hx
      · cases hx; exact .inl rfl
    · rename_i e; cases e; exact report_helped h h2 h3 (fun _ _ e => by cases e; exact (going_step w).refl _) hx
    · rename_i e; cases e; exact report_helped h h2 h3 (fun _ _ e => by cases e; exact (going_step w).refl _) hx

/-- **C107**: asking for the help wins.  Once a help option was read on the command line, whatever else is on it and however
wrong it is, `Parse` ends with printing the help and exit code 0, if the help can be printed; it does not return or exit with
another code. -/
theorem help_wins {fuel : Nat} {P : Parser} (h : Built w P) {s0 s1 s2 : St} (ho : Opened w fuel P s0 s1) {pre post : List Event}
    (hpre : events w fuel s1 pre = some (s2, .ok true)) {i : Int32} {o : Opt} (hi : i ≠ 63) (he : s2.entry i = some o)
    (ha : o.cfg.action = .help ∨ o.cfg.action = .advHelp) {rest : List Text} {x : End}
    (hx : parse w fuel P.st (pre ++ ⟨i, none⟩ :: post) rest = some x) : x = .ub ∨ x = helpEnd w s0 true ∨ x = helpEnd w s0 false := by
  have hb := h.withHelp ho.help
  have hg : Going s0 s2 := (going_step w).trans (going_init ho.init) (events_keeps (going_step w) hpre)
  unfold parse at hx
  rw [ho.help] at hx
  dsimp only at hx
  rw [ho.init] at hx
  dsimp only at hx
  rw [events_split hpre] at hx
  unfold events at hx
  rw [if_neg (by simp [hi, he])] at hx
  have hno : hasArg o.cfg.action = false := by rcases ha with h | h <;> rw [h] <;> rfl
  have hho : handleOption w fuel s2 i none = handle w fuel s2 i .null := by
    unfold handleOption parseArg
    rw [he]
    simp [hno]
  dsimp only at hx
  rw [hho] at hx
  cases fuel with
  | zero => cases hx
  | succ n =>
    have hh : handle w (n + 1) s2 i .null = handleOpt w (handle w n) s2 i o .null := by
      show (match s2.entry i with | none => _ | some o => _) = _
      rw [he]
    rw [hh] at hx
    unfold handleOpt at hx
    rcases ha with ha | ha <;> rw [ha] at hx <;> dsimp only at hx
    · exact after_helped hb (s := { s2 with printHelp := true }) ⟨⟨hg.shape.groups, hg.shape.arguments, hg.shape.paths, hg.shape.entries⟩, hg.options, fun _ => rfl, hg.adv⟩ (.inl rfl) hx
    · exact after_helped hb (s := { s2 with printAdv := true }) ⟨⟨hg.shape.groups, hg.shape.arguments, hg.shape.paths, hg.shape.entries⟩, hg.options, hg.help, fun _ => rfl⟩ (.inr rfl) hx

/-- **C107**: with calls whose arguments the help can print, the exit code is 0. -/
theorem help_exits {fuel : Nat} {title : Bytes} {help : Bool} {cs : List PCall} (hc : ∀ c ∈ cs, PCall.proper c) (hsh : ∀ c ∈ cs, PCall.showable c) {P : Parser}
    (hb : build w (newParser title help) cs = some P) {s0 s1 s2 : St} (ho : Opened w fuel P s0 s1) {pre post : List Event}
    (hpre : events w fuel s1 pre = some (s2, .ok true)) {i : Int32} {o : Opt} (hi : i ≠ 63) (he : s2.entry i = some o)
    (ha : o.cfg.action = .help ∨ o.cfg.action = .advHelp) {rest : List Text} {x : End}
    (hx : parse w fuel P.st (pre ++ ⟨i, none⟩ :: post) rest = some x) : x = .ub ∨ x = .exit 0 := by
  have h : Built w P := ⟨title, help, cs, hc, hb⟩
  obtain ⟨ds, hd, hb'⟩ := addHelp_calls (w := w) ho.help
  have key : ∀ adv, helpEnd w s0 adv = .exit 0 := by
    intro adv
    obtain ⟨h1, h2⟩ := build_tidy (w := w) (N := False) help_start (cs ++ ds) (P := newParser title help) (sound_init w help) (tidy_init help)
      (fun c hm => by
        rcases List.mem_append.1 hm with h | h
        · exact ⟨hc c h, showable_fit c (hsh c h)⟩
        · exact ⟨(hd c h).1, showable_fit c (hd c h).2⟩) (by rw [build_more hb]; exact hb')
    have hg := (h.withHelp ho.help).grouped
    obtain ⟨t, ht⟩ := help_ok_of (w := w) (P := ⟨s0, [], [], []⟩) h1 hg h2.forms adv
    unfold helpEnd helpRuns
    rw [ht]
    rfl
  rcases help_wins h ho hpre hi he ha hx with h | h | h
  · exact .inl h
  · exact .inr (h.trans (key true))
  · exact .inr (h.trans (key false))

end Verif.Args
