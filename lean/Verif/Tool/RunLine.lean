import Verif.Tool.RunMore
import Verif.Args.GetoptProps
/-!
# C111: from the words of the command line to what is written
-/
namespace Verif.Tool
open Verif Verif.Args JsonDrv Schema

/-- `Writable`, computed. -/
def writes (o : Opt) : Bool :=
  (!decide (o.short > 0) || (decide (o.short ≤ 127) && decide (o.short ≠ 43) && decide (o.short ≠ 45) && decide (o.short ≠ 58) && decide (o.short ≠ 59) &&
    decide (o.short ≠ 63))) && !o.long.contains 61 && !o.long.contains 0

theorem writes_writable {o : Opt} (h : writes o = true) : Writable o := by
  unfold writes at h
  simp only [Bool.and_eq_true, Bool.or_eq_true, Bool.not_eq_true', decide_eq_true_eq, decide_eq_false_iff_not] at h
  obtain ⟨⟨h1, h2⟩, h3⟩ := h
  refine ⟨fun hs => ?_, by simpa using h2, by simpa using h3⟩
  rcases h1 with h1 | h1
  · exact absurd hs h1
  · obtain ⟨⟨⟨⟨⟨h4, h5⟩, h6⟩, h7⟩, h8⟩, h9⟩ := h1
    exact ⟨h4, h5, h6, h7, h8, h9⟩

theorem all_writable {s : St} (h : s.reg.optionMap.all (fun x => writes x.2) = true) : ∀ i o, s.entry i = some o → Writable o := by
  intro i o ho
  rw [List.all_eq_true] at h
  exact writes_writable (h (i, o) (find_mem ho))

/-- The call of `AddHelpOptions` succeeds, and the argument has no name. -/
def named279 (s : St) : Bool := match addHelpOptions s with
  | (s0, .ok _) => match s0.entry 279 with
    | some o => decide (o.short = 0) && o.long.isEmpty
    | none => true
  | _ => false

theorem named279_spec {s : St} (h : named279 s = true) : ∃ s0, addHelpOptions s = (s0, .ok ()) ∧
    ∀ o : Opt, s0.entry o.id = some o → o.id = 279 → ¬ (o.short > 0 ∨ o.long ≠ []) := by
  unfold named279 at h
  split at h
  · next s0 _ h0 =>
    refine ⟨s0, h0, fun o h4 h3 => ?_⟩
    rw [h3] at h4
    rw [h4] at h
    simp only [Bool.and_eq_true, decide_eq_true_eq, List.isEmpty_iff] at h
    rintro (h6 | h6)
    · rw [h.1] at h6; exact absurd h6 (by decide)
    · exact h6 h.2
  · cases h

theorem varsh_names : ∀ yaml xml, (varshIn0 yaml xml).st.reg.optionMap.all (fun x => writes x.2) = true ∧ named279 (varshIn0 yaml xml).st = true := by
  intro yaml xml
  cases yaml <;> cases xml <;> exact ⟨by kernel_refl, by kernel_refl⟩

/-- What is mentioned has a name. -/
theorem reads_named {posix : Bool} {s : St} {ws rest : List Text} {es : List Event} (h : Reads posix s ws es rest) :
    ∀ e ∈ es, ∃ o : Opt, s.entry o.id = some o ∧ e.id = o.id ∧ (o.short > 0 ∨ o.long ≠ []) := by
  have flags : ∀ os : List Opt, (∀ o ∈ os, IsFlag s o) → ∀ e ∈ mentions os, ∃ o : Opt, s.entry o.id = some o ∧ e.id = o.id ∧ (o.short > 0 ∨ o.long ≠ []) := by
    intro os hos e he
    obtain ⟨o, ho, rfl⟩ := List.mem_map.1 he
    exact ⟨o, (hos o ho).1, rfl, .inl (hos o ho).2.1⟩
  induction h with
  | done => nofun
  | stop => nofun
  | words _ _ => nofun
  | word _ _ _ ih => exact ih
  | long _ _ hm _ _ ih =>
    intro e he
    rcases List.mem_cons.1 he with rfl | he
    · exact ⟨_, hm.1, rfl, .inr hm.2.1⟩
    · exact ih e he
  | longWith _ hm _ _ ih =>
    intro e he
    rcases List.mem_cons.1 he with rfl | he
    · exact ⟨_, hm.1, rfl, .inr hm.2.1⟩
    · exact ih e he
  | longNext _ _ hm _ _ ih =>
    intro e he
    rcases List.mem_cons.1 he with rfl | he
    · exact ⟨_, hm.1, rfl, .inr hm.2.1⟩
    · exact ih e he
  | shorts _ hos _ ih =>
    intro e he
    rcases List.mem_append.1 he with he | he
    · exact flags _ hos e he
    · exact ih e he
  | shortsWith hos ht _ _ ih =>
    intro e he
    rcases List.mem_append.1 he with he | he
    · exact flags _ hos e he
    · rcases List.mem_cons.1 he with rfl | he
      · exact ⟨_, ht.1, rfl, .inl ht.2.1⟩
      · exact ih e he
  | shortsNext hos ht _ ih =>
    intro e he
    rcases List.mem_append.1 he with he | he
    · exact flags _ hos e he
    · rcases List.mem_cons.1 he with rfl | he
      · exact ⟨_, ht.1, rfl, .inl ht.2.1⟩
      · exact ih e he

theorem varsh_line {w : World} {name : Bytes} {yaml xml : Bool} {P : Parser} (hP : varsh w name yaml xml = some P) :
    (∃ cs, Reached cs P.st.reg) ∧ (∀ i o, P.st.entry i = some o → Writable o) ∧ named279 P.st = true := by
  rw [varsh_eq] at hP
  have hP := Option.some.inj hP
  have hst : P.st = (varshIn0 yaml xml).st := by rw [← hP]
  obtain ⟨n1, n2⟩ := varsh_names yaml xml
  rw [hst]
  exact ⟨(varsh_built w name yaml xml).reached, all_writable n1, n2⟩

/-- C111.  For every command line that is accepted: it mentions options and other words in one of the ways they can be
written, and varsh does what these ask for. -/
theorem command_line {w : World} (hp : 64 ≤ w.p) {posix : Bool} {fuel : Nat} {name : Bytes} {yaml xml : Bool} {P : Parser}
    (hP : varsh w name yaml xml = some P) {ws : List Text} {t : St} {v : Val} (h : parseLine w posix fuel P.st ws = some (.returned t v)) (L : Lib) :
    ∃ s0 es rest i o, addHelpOptions P.st = (s0, .ok ()) ∧ Reads posix s0 ws es rest ∧ (∀ e ∈ es, e.id ≠ 279) ∧
      parse w fuel P.st es rest = some (.returned t v) ∧ inputFormat v = .ok (some i) ∧ outputFormat v = .ok (some o) ∧
      varshMain L v = carriedOut L w (asked es rest w) (howOf v i o) := by
  obtain ⟨hr, hw, hn⟩ := varsh_line hP
  obtain ⟨cs, hs⟩ := hr
  obtain ⟨s0, h0, hno⟩ := named279_spec hn
  obtain ⟨es, rest, h1, h2⟩ := (line_accepted_partial hs hw h0).1 h
  have hes : ∀ e ∈ es, e.id ≠ 279 := by
    intro e he h3
    obtain ⟨o, h4, h5, h6⟩ := reads_named h1 e he
    exact hno o h4 (h5.symm.trans h3) h6
  obtain ⟨i, o, h3, h4, h5⟩ := does_what_is_asked hp hP hes h2 L
  exact ⟨s0, es, rest, i, o, h0, h1, hes, h2, h3, h4, h5⟩

/-- What is written, and how varsh ends, for the words of a command line. -/
def outcomeOf (L : Lib) (ws : List Text) : Option (Bytes × Ending) :=
  match varsh exWorld [] true true with
  | none => none
  | some P => match parseLine exWorld false 1 P.st ws with
    | some (.returned _ v) => some ((varshMain L v).written, (varshMain L v).ending)
    | _ => none

/-- `varsh --pa=a` (an abbreviation of --path), `varsh x --list -Jx y` and `varsh -- --list`. -/
example : outcomeOf exLib [word [45, 45, 112, 97, 116, 104, 61, 97]] = some ([49, 10], .done) ∧
    outcomeOf exLib [word [120], word [45, 74, 120], word [121]] = some ([120, 10, 121, 10], .done) ∧
    outcomeOf exLib [word [45, 45], word [45, 45, 108, 105, 115, 116]] = some ([45, 45, 108, 105, 115, 116, 10], .done) :=
  ⟨by kernel_refl, by kernel_refl, by kernel_refl⟩

end Verif.Tool
