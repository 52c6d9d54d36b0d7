import Verif.Args.HelpBuilt
import Verif.Args.ParseShape
/-!
# Every parser a program can build has the registrations of a sequence of calls

The theorems about `Parse` and about command lines start from registrations reached by calls that register entries
and change their settings (`Reached`).  A program builds a parser with more calls: setters, groups, and `Merge` of
a description (`Built`).  Whatever it does, the registrations are ones the former can reach.
-/
namespace Verif.Args
open Verif JsonDrv Schema

variable {w : World}

/-- The second registrations are reached from the first. -/
def Goes (a b : Reg) : Prop := ∃ cs : List Call, (∀ c ∈ cs, c.charShort) ∧ calls a cs = some b

theorem Goes.refl (a : Reg) : Goes a a := ⟨[], nofun, rfl⟩

theorem calls_append : ∀ (cs ds : List Call) {a b : Reg}, calls a cs = some b → calls a (cs ++ ds) = calls b ds
  | [], _, _, _, h => by cases h; rfl
  | c :: cs, ds, a, b, h => by
    rw [List.cons_append]
    rw [calls] at h ⊢
    split at h
    · cases h
    · exact calls_append cs ds h

theorem Goes.trans {a b c : Reg} (h : Goes a b) (h' : Goes b c) : Goes a c := by
  obtain ⟨cs, h1, h2⟩ := h
  obtain ⟨ds, h3, h4⟩ := h'
  refine ⟨cs ++ ds, fun c hc => ?_, by rw [calls_append cs ds h2]; exact h4⟩
  rcases List.mem_append.1 hc with h | h
  · exact h1 c h
  · exact h3 c h

theorem Goes.call {a : Reg} (c : Call) (hc : c.charShort) (h : (call a c).2 ≠ .ub) : Goes a (Args.call a c).1 := by
  refine ⟨[c], fun d hd => by rw [List.mem_singleton.1 hd]; exact hc, ?_⟩
  unfold calls
  split
  · next e => exact absurd e h
  · rfl

theorem goes_setCfg (s : St) (id : Int32) (f : Config → Config) : Goes s.reg (setCfg s id f).reg :=
  Goes.call (a := s.reg) (.configure id f) trivial nofun

theorem goes_addOption (r : Reg) (k : Bytes) (sh : Int32) (l hp : Bytes) (a : Action) (hc : sh ≤ 255) (h : (addOption r k sh l hp a).2 ≠ .ub) :
    Goes r (addOption r k sh l hp a).1 := by
  refine Goes.call (a := r) (.addOption k sh l hp a) hc ?_
  show (some <$> (addOption r k sh l hp a).2) ≠ .ub
  revert h
  cases (addOption r k sh l hp a).2 <;> intro h e
  · cases e
  · cases e
  · exact h rfl

theorem goes_addArgument (r : Reg) (k hp : Bytes) (a : Action) (h : (addArgument r k hp a).2 ≠ .ub) : Goes r (addArgument r k hp a).1 := by
  refine Goes.call (a := r) (.addArgument k hp a) trivial ?_
  show (some <$> (addArgument r k hp a).2) ≠ .ub
  revert h
  cases (addArgument r k hp a).2 <;> intro h e
  · cases e
  · cases e
  · exact h rfl

/-- An effect that is defined goes to registrations that are reached. -/
def KeepR (s : St) (e : Effect) : Prop := e.2 ≠ .ub → Goes s.reg e.1.reg

theorem keepR_refl (s : St) (r : Out Unit) : KeepR s (s, r) := fun _ => .refl _

theorem KeepR.trans {s t : St} {e : Effect} (h : Goes s.reg t.reg) (h' : KeepR t e) : KeepR s e := fun hu => h.trans (h' hu)

theorem keepR_withVal {α : Type} {s : St} {r : Out α} {f : α → Effect} (hf : ∀ a, r = .ok a → KeepR s (f a)) : KeepR s (withVal s r f) := by
  cases r with
  | ok a => exact hf a rfl
  | throw e => exact fun _ => .refl _
  | ub => exact fun _ => .refl _

theorem keepR_next {s : St} {r : Effect} {f : St → Effect} (h : KeepR s r) (hf : KeepR r.1 (f r.1)) : KeepR s (next r f) := by
  obtain ⟨t, r⟩ := r
  cases r with
  | ok a => exact KeepR.trans (h nofun) hf
  | throw e => exact h
  | ub => exact h

theorem keepR_each {α : Type} {f : St → α → Effect} (hf : ∀ s x, KeepR s (f s x)) : ∀ (xs : List α) (s : St), KeepR s (each f s xs)
  | [], s => keepR_refl s _
  | x :: xs, s => keepR_next (hf s x) (keepR_each hf xs _)

theorem keepR_onReg {α : Type} {s : St} {r : Reg × Out α} {f : St → α → Effect} (hl : r.2 ≠ .ub → Goes s.reg r.1)
    (hf : ∀ s a, KeepR s (f s a)) : KeepR s (onReg s r f) := by
  obtain ⟨t, r⟩ := r
  cases r with
  | ok a => exact KeepR.trans (t := { s with reg := t }) (hl nofun) (hf _ a)
  | throw e => exact fun _ => hl nofun
  | ub => exact fun h => absurd rfl h

theorem keepR_initOpt (s : St) (id : Int32) (o : Val) : KeepR s (initOpt s id o) := by
  unfold initOpt
  split
  · exact fun _ => .refl _
  · refine keepR_withVal fun t _ => ?_
    refine KeepR.trans (goes_setCfg s id fun c => { c with ty := t }) ?_
    dsimp only
    generalize setCfg s id (fun c => { c with ty := t }) = s
    refine keepR_withVal fun b _ => ?_
    refine KeepR.trans (goes_setCfg s id fun c => { c with required := b }) ?_
    generalize setCfg s id (fun c => { c with required := b }) = s
    refine keepR_withVal fun a _ => ?_
    refine KeepR.trans (t := setAdvanced s id a) (goes_setCfg s id fun c => { c with advanced := a }) ?_
    unfold initMerge
    split
    · exact fun _ => goes_setCfg ..
    · exact fun _ => .refl _
    · exact fun _ => .refl _

theorem keepR_mergeOption (s : St) (e : Bytes × Val) : KeepR s (mergeOption w s e) := by
  unfold mergeOption
  refine keepR_withVal fun a ha => keepR_withVal fun b _ => keepR_withVal fun c _ => keepR_withVal fun d _ => ?_
  have hc : a ≤ 255 := by
    unfold shortIn at ha
    split at ha
    · cases ha; decide
    · revert ha
      cases Build.asString w.fo.fltText _ with
      | ok x => intro ha; cases ha; exact firstChar_le _
      | throw e => intro ha; cases ha
      | ub => intro ha; cases ha
  exact keepR_onReg (goes_addOption _ _ _ _ _ _ hc) fun s id => keepR_initOpt s id _

theorem keepR_mergeArgument (s : St) (o : Val) : KeepR s (mergeArgument w s o) := by
  unfold mergeArgument
  split
  · exact fun _ => .refl _
  · refine keepR_withVal fun a _ => keepR_withVal fun b _ => keepR_withVal fun c _ => ?_
    exact keepR_onReg (goes_addArgument _ _ _ _) fun s id => keepR_initOpt s id _

theorem keepR_addMember (s : St) (n : Bytes) (id : Int32) (r : Out Unit) : KeepR s (addMember s n id, r) :=
  fun _ => goes_setCfg (setGroup s n _) id _

theorem keepR_mergeGroup (s : St) (e : Bytes × Val) : KeepR s (mergeGroup w s e) := by
  unfold mergeGroup
  refine KeepR.trans (t := getGroup s e.1) (.refl _) ?_
  generalize getGroup s e.1 = s
  unfold initGroup
  split
  · exact fun _ => .refl _
  · refine keepR_withVal fun t _ => ?_
    refine KeepR.trans (s := s) (t := setGroup s e.1 (fun g => { g with title := t })) (.refl _) ?_
    generalize setGroup s e.1 (fun g => { g with title := t }) = s
    refine keepR_withVal fun t _ => ?_
    refine KeepR.trans (s := s) (t := setGroup s e.1 (fun g => { g with description := t })) (.refl _) ?_
    generalize setGroup s e.1 (fun g => { g with description := t }) = s
    refine keepR_withVal fun t _ => ?_
    refine KeepR.trans (s := s) (t := setGroup s e.1 (fun g => { g with required := t })) (.refl _) ?_
    generalize setGroup s e.1 (fun g => { g with required := t }) = s
    refine keepR_withVal fun t _ => ?_
    refine KeepR.trans (s := s) (t := setGroup s e.1 (fun g => { g with exclusive := t })) (.refl _) ?_
    generalize setGroup s e.1 (fun g => { g with exclusive := t }) = s
    refine keepR_withVal fun b _ => ?_
    refine KeepR.trans (t := setGroup { s with haveAdvanced := s.haveAdvanced || b } e.1 (fun g => { g with advanced := b })) (.refl _) ?_
    refine keepR_each (fun s x => ?_) _ _
    unfold mergeMember
    exact keepR_withVal fun kp _ => keepR_withVal fun id _ => keepR_addMember s _ id _

theorem setCfg_const (s : St) (id : Int32) {o : Opt} (ho : s.entry id = some o) (p : Nat) (f : Setter) :
    Goes s.reg (setCfg s id fun _ => (f.run p o.cfg).1).reg := goes_setCfg ..

theorem keepR_step (s : St) (c : PCall) (hc : PCall.proper c) : KeepR s (c.step w s) := by
  cases c with
  | addOption k sh l hp a => exact keepR_onReg (goes_addOption _ _ _ _ _ _ hc) fun s id => keepR_refl s _
  | addArgument k hp => exact keepR_onReg (goes_addArgument _ _ _ _) fun s id => keepR_refl s _
  | set id f =>
    show KeepR s (setEntry w.p s id f)
    unfold setEntry
    split
    · exact fun _ => .refl _
    · rename_i o ho
      dsimp only
      cases f <;> exact fun _ => setCfg_const s id ho w.p _
  | joinGroup id n =>
    show KeepR s (match s.entry id with | none => _ | some _ => _)
    split
    · exact fun _ => .refl _
    · exact KeepR.trans (t := getGroup s n) (.refl _) (keepR_addMember _ _ _ _)
  | groupAdd n k =>
    show KeepR s (match find s.groups n with | none => _ | some _ => _)
    split
    · exact fun _ => .refl _
    · exact keepR_withVal fun id _ => keepR_addMember _ _ id _
  | merge d =>
    show KeepR s (mergeDescription w s d)
    unfold mergeDescription
    refine keepR_next (keepR_each keepR_mergeOption _ _) ?_
    refine keepR_next (keepR_each keepR_mergeGroup _ _) ?_
    exact keepR_each keepR_mergeArgument _ _
  | conflictResolution b => exact fun _ => Goes.call (a := s.reg) (.conflictResolution b) trivial nofun
  | _ => exact fun _ => .refl _

theorem build_goes : ∀ (cs : List PCall) {P Q : Parser}, (∀ c ∈ cs, PCall.proper c) → build w P cs = some Q → Goes P.st.reg Q.st.reg
  | [], P, Q, _, hb => by cases hb; exact .refl _
  | c :: cs, P, Q, hc, hb => by
    have hk := keepR_step (w := w) P.st c (hc c (by simp))
    unfold build at hb
    split at hb
    · cases hb
    · next hu =>
      have hst : Goes P.st.reg (c.run w P).1.st.reg := by
        have hk' := hk hu
        cases c <;> first | exact hk' | exact .refl _
      exact hst.trans (build_goes cs (fun d hd => hc d (by simp [hd])) hb)

/-- The registrations of every parser a program can build are reached by registering entries and changing their
settings, so that the theorems about reached registrations hold for it. -/
theorem Built.reached {P : Parser} (h : Built w P) : ∃ cs, Reached cs P.st.reg := by
  obtain ⟨t, b, cs, hc, hb⟩ := h
  exact build_goes cs hc hb

end Verif.Args
