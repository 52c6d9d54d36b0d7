import Verif.Args.GetoptScan
import Verif.Args.ParseExamples
/-!
# C108: the words of a command line
-/

namespace Verif.Args
open Verif JsonDrv Schema

/-! ## Names and numbers of entries -/

theorem addOption_new {s t : Reg} (hs : Ready s) {keypath short long help action r} (hc : short ≤ 255)
    (h : addOption s keypath short long help action = (t, r)) (hr : r ≠ .ub) {i : Int32} {o : Opt} (ho : find t.optionMap i = some o) :
    find s.optionMap i = some o ∨ (o.long = long ∧ (o.short = short ∨ o.short = 0) ∧ (o.short > 0 → o.short = i)) := by
  obtain ⟨t', r', e, _, h1, h2⟩ := addOption_cases s keypath short long help action
  rw [h] at e; cases e
  cases r with
  | ub => exact absurd rfl hr
  | throw e => left; rw [← (h1 e rfl).1.2.2.1]; exact ho
  | ok id =>
    obtain ⟨t0, path, p, sh, _, h4, h5, h6, rfl⟩ := h2 id rfl
    have hu := h4.unused hs.inv (short_le hc (h5.imp_right And.left))
    obtain ⟨e1, e2, e3, e4, _, e6⟩ := newOpt_fields h6
    have e7 := h4.same.2.2.1
    have ht : (enterOption t0 p).optionMap = insert ltInt s.optionMap id p := by simp only [enterOption, e7, e1]
    rw [ht, find_insert _ _ hu] at ho
    split at ho
    · next e =>
      cases ho
      subst e
      refine .inr ⟨e4, ?_, fun hp => ?_⟩
      · rw [e3]; exact h5.imp_right And.left
      · rw [e3] at hp ⊢
        rcases h4.id with ⟨_, e⟩ | ⟨e, _⟩
        · exact e.symm
        · exact absurd hp e
    · exact .inl ho

theorem addArgument_new {s t : Reg} (hs : Ready s) {keypath help action r}
    (h : addArgument s keypath help action = (t, r)) (hr : r ≠ .ub) {i : Int32} {o : Opt} (ho : find t.optionMap i = some o) :
    find s.optionMap i = some o ∨ (o.long = [] ∧ o.short = 0) := by
  obtain ⟨t', r', e, _, h1, h2⟩ := addArgument_cases s keypath help action
  rw [h] at e; cases e
  cases r with
  | ub => exact absurd rfl hr
  | throw e => left; rw [← (h1 e rfl).1.2.2.1]; exact ho
  | ok id =>
    obtain ⟨t0, path, p, _, h4, h6, rfl⟩ := h2 id rfl
    have hu := h4.unused hs.inv (by decide)
    obtain ⟨e1, e2, e3, e4, _, e6⟩ := newOpt_fields h6
    have e7 := h4.same.2.2.1
    have ht : (enterArgument t0 p).optionMap = insert ltInt s.optionMap id { p with cfg := argDefaults p.cfg } := by
      simp only [enterArgument, e7, e1]
    rw [ht, find_insert _ _ hu] at ho
    split at ho
    · cases ho; exact .inr ⟨e4, e3⟩
    · exact .inl ho

/-- The number of a short option is its character. -/
def Numbered (r : Reg) : Prop := ∀ i o, find r.optionMap i = some o → o.short > 0 → o.short = i

theorem calls_numbered {s t : Reg} (hr : Ready s) (hs : Numbered s) (cs : List Call) (hc : ∀ c ∈ cs, c.charShort) (h : calls s cs = some t) : Numbered t := by
  induction cs generalizing s with
  | nil => cases h; exact hs
  | cons c cs ih =>
    have h1 : calls s [c] = some (call s c).1 := by
      unfold calls at h ⊢
      cases hx : (call s c).2 with
      | ub => rw [hx] at h; cases h
      | ok _ => rfl
      | throw _ => rfl
    unfold calls at h
    have hne : (call s c).2 ≠ .ub := fun e => by rw [e] at h; cases h
    have h' : calls (call s c).1 cs = some t := by
      revert h hne
      cases (call s c).2 <;> simp
    refine ih (calls_ready hr [c] (fun d hd => hc d (by simp at hd; simp [hd])) h1) ?_ (fun c hc' => hc c (by simp [hc'])) h'
    intro i o ho hp
    cases c with
    | conflictResolution on => exact hs i o ho hp
    | addOption k sh l hp' a =>
      rcases addOption_new hr (hc (.addOption k sh l hp' a) (by simp)) (t := (addOption s k sh l hp' a).1) (r := (addOption s k sh l hp' a).2) rfl
        (by intro e; apply hne; simp [call, e]) ho with h | h
      · exact hs i o h hp
      · exact h.2.2 hp
    | addArgument k hp' a =>
      rcases addArgument_new hr (t := (addArgument s k hp' a).1) (r := (addArgument s k hp' a).2) rfl
        (by intro e; apply hne; simp [call, e]) ho with h | h
      · exact hs i o h hp
      · rw [h.2] at hp; exact absurd hp (by decide)
    | configure id f =>
      simp only [call, find_update] at ho
      cases e : find s.optionMap i with
      | none => rw [e] at ho; cases ho
      | some o' =>
        rw [e] at ho
        simp only [Option.map_some, Option.some.injEq] at ho
        have := hs i o' e
        rw [← ho] at hp ⊢
        revert hp
        split <;> exact this

theorem Writable.help {o : Opt} {l : Bytes} {c : Int32} (h : o.long = l) (hs : o.short = c ∨ o.short = 0) (hc : c = 0 ∨ c = 104) (hl : 61 ∉ l ∧ 0 ∉ l) : Writable o := by
  refine ⟨fun hp => ?_, by rw [h]; exact hl⟩
  rcases hs with e | e
  · rcases hc with rfl | rfl
    · rw [e] at hp; exact absurd hp (by decide)
    · rw [e]; decide
  · rw [e] at hp; exact absurd hp (by decide)

/-- What is needed of each entry, with the help options. -/
def Fit (s : St) : Prop := ∀ i o, s.entry i = some o → Writable o ∧ (o.short > 0 → o.short = i)

theorem fit_add {t : Reg} (ht : Ready t) {P : Int32 → Opt → Prop} (hP : ∀ i o, find t.optionMap i = some o → P i o) {k sh l hp a} (hc : sh ≤ 255)
    (hn : ∀ i o, o.long = l → (o.short = sh ∨ o.short = 0) → (o.short > 0 → o.short = i) → P i o) (hr : (addOption t k sh l hp a).2 ≠ .ub) :
    ∀ i o, find (addOption t k sh l hp a).1.optionMap i = some o → P i o := by
  intro i o ho
  rcases addOption_new ht hc (t := (addOption t k sh l hp a).1) (r := (addOption t k sh l hp a).2) rfl hr ho with h | ⟨h1, h2, h3⟩
  · exact hP i o h
  · exact hn i o h1 h2 h3

theorem addHelp_fit {s t : St} (hs : Ready s.reg) (hf : Fit s) (h : addHelpOptions s = (t, .ok ())) : Fit t := by
  have hs' : Ready { s.reg with resolve := true } :=
    hs.same ⟨rfl, rfl, rfl, rfl, rfl, rfl⟩ (SameEntries.inv (s := s.reg) ⟨rfl, rfl, rfl, rfl, rfl, rfl⟩ hs.inv (Int.le_refl _))
  unfold addHelpOptions at h
  split at h
  · dsimp only at h
    have h1 := fit_add hs' (P := fun i o => Writable o ∧ (o.short > 0 → o.short = i)) hf (k := helpPath) (sh := 104) (l := helpLong) (hp := helpSays)
      (a := .help) (by decide) (fun i o a b c => ⟨Writable.help a b (.inr rfl) (by decide), c⟩)
    have r1 := addOption_ready hs' (keypath := helpPath) (short := 104) (long := helpLong) (help := helpSays) (action := .help) (by decide)
      (t := (addOption { s.reg with resolve := true } helpPath 104 helpLong helpSays .help).1)
      (r := (addOption { s.reg with resolve := true } helpPath 104 helpLong helpSays .help).2) rfl
    split at h
    · cases h
    · next e he =>
      cases h
      exact h1 (by rw [he]; nofun)
    · next id he =>
      have h2 := h1 (by rw [he]; nofun)
      have r2 := (r1 (by rw [he]; nofun)).1
      split at h
      · have h3 := fit_add r2 (P := fun i o => Writable o ∧ (o.short > 0 → o.short = i)) h2 (k := advPath) (sh := 0) (l := advLong) (hp := advSays)
          (a := .advHelp) (by decide) (fun i o a b c => ⟨Writable.help a b (.inl rfl) (by decide), c⟩)
        split at h
        · cases h
        · next he2 =>
          cases h
          exact h3 he2
      · cases h
        exact h2
  · cases h; exact hf

theorem reached_readable {cs : List Call} {s s0 : St} (hs : Reached cs s.reg) (hw : ∀ i o, s.entry i = some o → Writable o)
    (h0 : addHelpOptions s = (s0, .ok ())) : Readable s0 := by
  have hr := reached_ready hs
  have hn : Numbered s.reg := calls_numbered (s := .init) ⟨inv_init, by simp [Reg.init], by simp [Reg.init, find], by simp [Reg.init, find]⟩ (by intro i o h; cases h) cs hs.1 hs.2
  have hf : Fit s0 := addHelp_fit hr (fun i o ho => ⟨hw i o ho, hn i o ho⟩) h0
  have h1 := (addHelp_withHelp hr h0).ready
  refine ⟨fun e he => mem_find h1.nodup he, fun i o ho => (h1.inv.listed i o ho).2, fun i o ho => (hf i o ho).2, ?_, fun i o ho => (hf i o ho).1⟩
  intro i j a b ha hb hne e
  have e1 := h1.inv.long i a ha hne
  have e2 := h1.inv.long j b hb (by rw [← e]; exact hne)
  rw [e, e2] at e1
  exact (Option.some.inj e1).symm

/-! ## What is wrong is not accepted -/

theorem helpEnd_not (w : World) (s : St) (adv : Bool) (t : St) (v : Val) : helpEnd w s adv ≠ .returned t v := by
  unfold helpEnd
  cases helpRuns w s adv <;> nofun

theorem printed_not (w : World) (s : St) (n : Nat) (t : St) (v : Val) : printed w s (.exit n) ≠ .returned t v := by
  unfold printed
  split
  · exact helpEnd_not _ _ _ _ _
  · split
    · exact helpEnd_not _ _ _ _ _
    · split
      · split <;> nofun
      · nofun

theorem events_wrong (w : World) (fuel : Nat) : ∀ (es : List Event) (s : St), wrong ∈ es → ∀ t, events w fuel s es ≠ some (t, .ok true)
  | e :: es, s, h => by
    intro t
    unfold events
    split
    · nofun
    · next hn =>
      have h1 : wrong ∈ es := by
        rcases List.mem_cons.1 h with rfl | h
        · exact absurd (.inl rfl) hn
        · exact h
      split
      · nofun
      · exact events_wrong w fuel es _ h1 t
      · nofun
      · nofun

theorem parse_wrong (w : World) (fuel : Nat) (s : St) {es : List Event} (h : wrong ∈ es) (rest : List Text) (t : St) (v : Val) :
    parse w fuel s es rest ≠ some (.returned t v) := by
  unfold parse
  split
  · nofun
  · nofun
  · split
    · next s1 _ _ =>
      have := events_wrong w fuel es s1 h
      unfold afterEvents
      split
      · nofun
      · next s2 e => exact absurd e (this s2)
      · split
        · nofun
        · unfold report; intro h; exact printed_not _ _ _ _ _ (Option.some.inj h)
        · nofun
      · unfold report; intro h; exact printed_not _ _ _ _ _ (Option.some.inj h)
      · nofun
    · next r hr =>
      unfold report
      split
      · nofun
      · next heq => exact absurd heq (hr _ _)
      · intro h; exact printed_not _ _ _ _ _ (Option.some.inj h)
      · nofun

/-! ## The theorems -/

section
variable {w : World} {posix : Bool} {fuel : Nat} {cs : List Call} {s s0 : St}

/-- C108: if the words of the command line mention these options and other words, that is what `Parse` goes by. -/
theorem line_read_partial (hs : Reached cs s.reg) (hw : ∀ i o, s.entry i = some o → Writable o) (h0 : addHelpOptions s = (s0, .ok ())) {ws rest : List Text} {es : List Event}
    (hr : Reads posix s0 ws es rest) : parseLine w posix fuel s ws = parse w fuel s es rest := by
  have h := reached_readable hs hw h0
  unfold parseLine
  rw [h0]
  dsimp only
  rw [h.wordsOf_eq, h.complete hr]

/-- C108: a command line means one thing at most. -/
theorem line_unique_partial (hs : Reached cs s.reg) (hw : ∀ i o, s.entry i = some o → Writable o) (h0 : addHelpOptions s = (s0, .ok ())) {ws rest rest' : List Text}
    {es es' : List Event} (h1 : Reads posix s0 ws es rest) (h2 : Reads posix s0 ws es' rest') : es = es' ∧ rest = rest' := by
  have h := reached_readable hs hw h0
  have := (h.complete h1).symm.trans (h.complete h2)
  exact Prod.mk.inj this

/-- C108: `Parse` returns a value exactly for the command lines that can be read, if it does for what they mention: a line that
cannot be read is never accepted. -/
theorem line_accepted_partial (hs : Reached cs s.reg) (hw : ∀ i o, s.entry i = some o → Writable o) (h0 : addHelpOptions s = (s0, .ok ())) {ws : List Text} {t : St} {v : Val} :
    parseLine w posix fuel s ws = some (.returned t v) ↔
      ∃ es rest, Reads posix s0 ws es rest ∧ parse w fuel s es rest = some (.returned t v) := by
  have h := reached_readable hs hw h0
  constructor
  · intro hp
    have hp' := hp
    unfold parseLine at hp
    rw [h0] at hp
    dsimp only at hp
    rw [h.wordsOf_eq] at hp
    by_cases hx : wrong ∈ (scan (orderOf posix) (shownTables s0) none ws).1
    · exact absurd hp (parse_wrong w fuel s hx _ t v)
    · exact ⟨_, _, (h.sound posix ws).1 hx, hp⟩
  · rintro ⟨es, rest, hr, hp⟩
    rw [line_read_partial hs hw h0 hr]
    exact hp

/-- C108: all the ways to write an option with a value are the same, whatever follows. -/
theorem spellings_partial (hs : Reached cs s.reg) (hw : ∀ i o, s.entry i = some o → Writable o) (h0 : addHelpOptions s = (s0, .ok ())) {o : Opt} {n : Bytes} {v : Bytes} {e : Bool}
    (hm : Means s0 n o) (hn : n ≠ [] ∧ 61 ∉ n) (ha : hasArg o.cfg.action = true) (ws : List Text) (e' : Bool) :
    parseLine w posix fuel s (⟨45 :: 45 :: (n ++ 61 :: v), e⟩ :: ws) = parseLine w posix fuel s (⟨45 :: 45 :: n, e'⟩ :: ⟨v, e⟩ :: ws) ∧
    (o.short > 0 →
      parseLine w posix fuel s (⟨[45, shortChar o], e'⟩ :: ⟨v, e⟩ :: ws) = parseLine w posix fuel s (⟨45 :: 45 :: n, e'⟩ :: ⟨v, e⟩ :: ws) ∧
      (v ≠ [] → parseLine w posix fuel s (⟨45 :: shortChar o :: v, e⟩ :: ws) = parseLine w posix fuel s (⟨45 :: 45 :: n, e'⟩ :: ⟨v, e⟩ :: ws))) := by
  have h := reached_readable hs hw h0
  have hl := h.lookup_means hm
  have ht : (longOf o).takes = true := ha
  have key : ∀ us, scan (orderOf posix) (shownTables s0) none (⟨45 :: 45 :: n, e'⟩ :: us) = scan (orderOf posix) (shownTables s0) (some o.id) us := by
    intro us
    rw [h.scan_long hn.1, show (shownTables s0).longs = (tables s0.reg.optionMap).longs from rfl, longWord_plain hn.2 hl, ht]
    rfl
  have line : ∀ us us', scan (orderOf posix) (shownTables s0) none us = scan (orderOf posix) (shownTables s0) none us' →
      parseLine w posix fuel s us = parseLine w posix fuel s us' := by
    intro us us' e
    unfold parseLine
    rw [h0]
    dsimp only
    rw [h.wordsOf_eq, h.wordsOf_eq, e]
  refine ⟨line _ _ ?_, fun hsh => ?_⟩
  · rw [key, h.scan_long (by simp), show (shownTables s0).longs = (tables s0.reg.optionMap).longs from rfl, longWord_with hn.2 hl, ht]
    rfl
  · have hT : IsTaker s0 o := ⟨hm.1, hsh, ha⟩
    refine ⟨line _ _ ?_, fun hv => line _ _ ?_⟩
    · rw [key, h.scan_short (hT.notDash h), show cluster (shownTables s0).shorts e' [shortChar o] = _ from h.cluster_taker hT e' [], if_pos rfl]
      rfl
    · rw [key, h.scan_short (hT.notDash h), show cluster (shownTables s0).shorts e (shortChar o :: v) = _ from h.cluster_taker hT e v, if_neg hv]
      rfl

/-- C108: after "--" nothing is an option. -/
theorem line_rest_partial (hs : Reached cs s.reg) (hw : ∀ i o, s.entry i = some o → Writable o) (h0 : addHelpOptions s = (s0, .ok ())) (e : Bool) (ws : List Text) :
    parseLine w posix fuel s (⟨[45, 45], e⟩ :: ws) = parse w fuel s [] ws := line_read_partial hs hw h0 .stop

end

/-! ## Cases that meet the hypotheses -/

/-- Options -a or --alpha with a value, --alpine and -v. -/
def exLine : List Call := [.addOption [97] 97 [97, 108, 112, 104, 97] [] .store, .addOption [98] 0 [97, 108, 112, 105, 110, 101] [] .storeTrue,
  .addOption [118] 118 [] [] .count, .addArgument [102] [] .store, .addArgument [103] [] .store]

theorem exLine_reached : Reached exLine (exPlain exLine).reg := ⟨by simp [exLine, Call.charShort], rfl⟩

theorem exLine_writable : ∀ i o, (exPlain exLine).entry i = some o → Writable o := by
  have key : ∀ e ∈ (exPlain exLine).reg.optionMap, (e.2.short > 0 → e.2.short ≤ 127 ∧ e.2.short ≠ 43 ∧ e.2.short ≠ 45 ∧ e.2.short ≠ 58 ∧ e.2.short ≠ 59 ∧ e.2.short ≠ 63) ∧
      61 ∉ e.2.long ∧ 0 ∉ e.2.long := by decide
  intro i o ho
  have := key _ (find_mem ho)
  exact ⟨this.1, this.2⟩

/-- "x -vv --alph=3 --alpi -- -v" -/
def exWords : List Text := [⟨[120], false⟩, ⟨[45, 118, 118], false⟩, ⟨[45, 45, 97, 108, 112, 104, 61, 51], false⟩, ⟨[45, 45, 97, 108, 112, 105], false⟩,
  ⟨[45, 45], false⟩, ⟨[45, 118], false⟩]

/-- The hypotheses are met, the line can be read, and all of it is in the result. -/
example : ∃ s0, addHelpOptions (exPlain exLine) = (s0, .ok ()) ∧
    (∃ o, s0.entry 97 = some o ∧ Means s0 [97, 108, 112, 104] o ∧ hasArg o.cfg.action = true ∧ o.short > 0) ∧
    returns (parseLine exWorld false 1 (exPlain exLine) exWords) =
      some (.map [([97], .int 3), ([98], .bool true), ([102], .str [120]), ([103], .str [45, 118]), ([118], .uint 2)]) ∧
    Reads false s0 exWords [⟨118, none⟩, ⟨118, none⟩, ⟨97, some ⟨[51], false⟩⟩, ⟨257, none⟩] [⟨[120], false⟩, ⟨[45, 118], false⟩] := by
  refine ⟨_, rfl, ⟨_, rfl, ⟨rfl, by decide, .inr ⟨⟨[97], rfl⟩, ?_⟩⟩, rfl, by decide⟩, by rfl, ?_⟩
  · have key : ∀ e ∈ (addHelpOptions (exPlain exLine)).1.reg.optionMap, e.2.long ≠ [] → [97, 108, 112, 104] <+: e.2.long → e.2.long ≠ [97, 108, 112, 104] ∧ e.1 = 97 := by decide
    exact fun i p hp => key _ (find_mem hp)
  · exact (reached_readable exLine_reached exLine_writable rfl).sound false exWords |>.1 (by
      have : (scan (orderOf false) (shownTables (addHelpOptions (exPlain exLine)).1) none exWords).1.map (·.id) = [118, 118, 97, 257] := by rfl
      intro h
      have := List.mem_map_of_mem (f := (·.id)) h
      rw [‹List.map _ _ = _›] at this
      revert this
      decide)

/-- A line that cannot be read: "--al" could be either. -/
example : exits (parseLine exWorld false 1 (exPlain exLine) [⟨[45, 45, 97, 108], false⟩]) = some 0 := by rfl

/-- With POSIXLY_CORRECT the options end at the first other word. -/
example : returns (parseLine exWorld true 1 (exPlain exLine) [⟨[120], false⟩, ⟨[45, 118], false⟩]) =
    some (.map [([102], .str [120]), ([103], .str [45, 118]), ([118], .uint 0)]) := by rfl

/-! ## Findings: names that cannot be written -/

/-- Flags -9, -: and -x. -/
def exColon : List Call := [.addOption [57] 57 [] [] .storeTrue, .addOption [99] 58 [] [] .storeTrue, .addOption [120] 120 [] [] .storeTrue]

/-- C108, finding: a short option ':' makes the option before it take a value: -9x should set both and is refused. -/
theorem colon_option_false : Reached exColon (exPlain exColon).reg ∧
    (∃ s0, addHelpOptions (exPlain exColon) = (s0, .ok ()) ∧ Reads false s0 [⟨[45, 57, 120], false⟩] [⟨57, none⟩, ⟨120, none⟩] []) ∧
    returns (parse exWorld 1 (exPlain exColon) [⟨57, none⟩, ⟨120, none⟩] []) = some (.map [([57], .bool true), ([120], .bool true)]) ∧
    exits (parseLine exWorld false 1 (exPlain exColon) [⟨[45, 57, 120], false⟩]) = some 1 := by
  refine ⟨⟨by simp [exColon, Call.charShort], rfl⟩, ⟨_, rfl, ?_⟩, by rfl, by rfl⟩
  let s0 := (addHelpOptions (exPlain exColon)).1
  have h9 : ∃ o, s0.entry 57 = some o ∧ o.id = 57 ∧ o.short = 57 ∧ hasArg o.cfg.action = false := ⟨_, rfl, rfl, rfl, rfl⟩
  have hx : ∃ o, s0.entry 120 = some o ∧ o.id = 120 ∧ o.short = 120 ∧ hasArg o.cfg.action = false := ⟨_, rfl, rfl, rfl, rfl⟩
  obtain ⟨o, o1, o2, o3, o4⟩ := h9
  obtain ⟨p, p1, p2, p3, p4⟩ := hx
  have := Reads.shorts (posix := false) (s := s0) (os := [o, p]) (e := false) (ws := []) (rest := []) (es := []) (by simp) (by
    intro q hq
    rcases List.mem_cons.1 hq with rfl | hq
    · exact ⟨by rw [o2]; exact o1, by rw [o3]; decide, o4⟩
    · cases List.mem_singleton.1 hq
      exact ⟨by rw [p2]; exact p1, by rw [p3]; decide, p4⟩) .done
  simp only [mentions, List.map_cons, List.map_nil, o2, p2, shortChar, o3, p3] at this
  exact this

/-- C108, finding: a short option '?' can be declared, but -? always prints the help. -/
theorem question_option_false : Reached [.addOption [97] 63 [] [] .storeTrue] (exPlain [.addOption [97] 63 [] [] .storeTrue]).reg ∧
    (((exPlain [.addOption [97] 63 [] [] .storeTrue]).entry 63).map fun o => o.cfg.action) = some .storeTrue ∧
    exits (parseLine exWorld false 1 (exPlain [.addOption [97] 63 [] [] .storeTrue]) [⟨[45, 63], false⟩]) = some 0 :=
  ⟨⟨by simp [Call.charShort], rfl⟩, rfl, by rfl⟩

/-- C108, finding: with a short option '+' the options end at the first other word ("x -v" does not count), and -+ is refused. -/
theorem plus_option_false :
    returns (parseLine exWorld false 1 (exPlain [.addOption [112] 43 [] [] .storeTrue, .addOption [118] 118 [] [] .count, .addArgument [102] [] .store, .addArgument [103] [] .store])
      [⟨[120], false⟩, ⟨[45, 118], false⟩]) = some (.map [([102], .str [120]), ([103], .str [45, 118]), ([118], .uint 0)]) ∧
    exits (parseLine exWorld false 1 (exPlain [.addOption [112] 43 [] [] .storeTrue]) [⟨[45, 43], false⟩]) = some 0 := ⟨by rfl, by rfl⟩

/-- C108, finding: a long option can be declared with an '=', but then --a=b is refused. -/
theorem equals_option_false :
    exits (parseLine exWorld false 1 (exPlain [.addOption [97] 0 [97, 61, 98] [] .storeTrue]) [⟨[45, 45, 97, 61, 98], false⟩]) = some 0 := by rfl

end Verif.Args
