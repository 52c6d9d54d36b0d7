import Verif.Args.Parse
import Verif.Args.RegProps
/-!
# Lemmas about parsing a command line
-/

namespace Verif.Args
open Verif JsonDrv Schema

theorem andThen_eq {r : Res} {f : St → Res} {t : St} {x : Out Unit} (h : andThen r f = some (t, x)) :
    (∃ s, r = some (s, .ok ()) ∧ f s = some (t, x)) ∨ (r = some (t, x) ∧ x ≠ .ok ()) := by
  match r, h with
  | some (s, .ok _), h => exact .inl ⟨s, rfl, h⟩
  | some (s, .throw e), h =>
    simp only [andThen, Option.some.injEq, Prod.mk.injEq] at h
    obtain ⟨rfl, rfl⟩ := h
    exact .inr ⟨rfl, nofun⟩
  | some (s, .ub), h =>
    simp only [andThen, Option.some.injEq, Prod.mk.injEq] at h
    obtain ⟨rfl, rfl⟩ := h
    exact .inr ⟨rfl, nofun⟩

theorem andThen_ok {r : Res} {f : St → Res} {t : St} (h : andThen r f = some (t, .ok ())) :
    ∃ s, r = some (s, .ok ()) ∧ f s = some (t, .ok ()) := by
  rcases andThen_eq h with h | ⟨_, h⟩
  · exact h
  · exact absurd rfl h

theorem find_map {m : List (Int32 × Opt)} {g : Int32 → Opt → Opt} (k : Int32) :
    find (m.map fun (k, o) => (k, g k o)) k = (find m k).map (g k) := by
  induction m with
  | nil => rfl
  | cons a m ih =>
    obtain ⟨k', o⟩ := a
    simp only [List.map_cons, find]
    by_cases h : k' = k
    · subst h; simp
    · simp [h, ih]

theorem entry_setResult (s : St) (id : Int32) (v : Val) (k : Int32) :
    (setResult s id v).entry k = (s.entry k).map (fun o => if k = id then { o with result := v } else o) := by
  unfold St.entry setResult
  exact find_map (g := fun k o => if k = id then { o with result := v } else o) k

theorem find_mem {κ α : Type} [DecidableEq κ] {m : List (κ × α)} {k : κ} {v : α} (h : find m k = some v) : (k, v) ∈ m := by
  induction m with
  | nil => cases h
  | cons a m ih =>
    obtain ⟨k', v'⟩ := a
    simp only [find] at h
    split at h
    · next e => subst e; cases h; simp
    · exact List.mem_cons_of_mem _ (ih h)

/-- The configuration actions. -/
def isConfig : Action → Bool
  | .config => true
  | .configJson => true
  | .configYaml => true
  | .configPlist => true
  | _ => false

/-- A relation between states before and after that every step of `Handle` keeps. -/
structure Step (w : World) (R : St → St → Prop) : Prop where
  refl : ∀ s, R s s
  trans : ∀ {a b c}, R a b → R b c → R a c
  act : ∀ {h s id o arg t x}, s.entry id = some o → isConfig o.cfg.action = false →
    handleOpt w h s id o arg = some (t, x) → R s t

/-- A function on states keeps a relation. -/
def Keeps (R : St → St → Prop) (h : St → Int32 → Val → Res) : Prop :=
  ∀ s id v t x, h s id v = some (t, x) → R s t

theorem tryHandle_keeps {w R} (hR : Step w R) {h} (hh : Keeps R h) {s path v f t x}
    (hf : ∀ {a b y}, f a = some (b, y) → R a b) (e : tryHandle h s path v f = some (t, x)) : R s t := by
  unfold tryHandle at e
  split at e
  · exact hf e
  · split at e
    · cases e
    · next h1 => cases e; exact hh _ _ _ _ _ h1
    · next h1 => exact hR.trans (hh _ _ _ _ _ h1) (hf e)
    · next h1 => cases e; exact hh _ _ _ _ _ h1

theorem andThen_keeps {w R} (hR : Step w R) {r : Res} {f : St → Res} {s t : St} {x : Out Unit}
    (hr : ∀ {b y}, r = some (b, y) → R s b) (hf : ∀ {a b y}, f a = some (b, y) → R a b)
    (e : andThen r f = some (t, x)) : R s t := by
  rcases andThen_eq e with ⟨a, h1, h2⟩ | ⟨h1, _⟩
  · exact hR.trans (hr h1) (hf h2)
  · exact hr h1

theorem id_keeps {w R} (hR : Step w R) {s t : St} {x y : Out Unit} (e : (some (s, y) : Res) = some (t, x)) : R s t := by
  cases e; exact hR.refl s

mutual
theorem merge_keeps {w R} (hR : Step w R) {h} (hh : Keeps R h) {s path t x} :
    (v : Val) → merge h s path v = some (t, x) → R s t
  | .null, e => id_keeps hR e
  | .blob _, e => id_keeps hR e
  | .list xs, e => by
    rw [merge] at e
    exact tryHandle_keeps hR hh (fun e => mergeList_keeps hR hh xs e) e
  | .map m, e => by
    rw [merge] at e
    exact mergeMap_keeps hR hh m e
  | .bool b, e => by rw [merge] at e; exact tryHandle_keeps hR hh (fun e => id_keeps hR e) e; all_goals nofun
  | .int b, e => by rw [merge] at e; exact tryHandle_keeps hR hh (fun e => id_keeps hR e) e; all_goals nofun
  | .uint b, e => by rw [merge] at e; exact tryHandle_keeps hR hh (fun e => id_keeps hR e) e; all_goals nofun
  | .flt b, e => by rw [merge] at e; exact tryHandle_keeps hR hh (fun e => id_keeps hR e) e; all_goals nofun
  | .str b, e => by rw [merge] at e; exact tryHandle_keeps hR hh (fun e => id_keeps hR e) e; all_goals nofun
theorem mergeList_keeps {w R} (hR : Step w R) {h} (hh : Keeps R h) {s path i t x} :
    (xs : List Val) → mergeList h s path i xs = some (t, x) → R s t
  | [], e => by rw [mergeList] at e; exact id_keeps hR e
  | v :: xs, e => by
    rw [mergeList] at e
    exact andThen_keeps hR (fun e => merge_keeps hR hh v e) (fun e => mergeList_keeps hR hh xs e) e
theorem mergeMap_keeps {w R} (hR : Step w R) {h} (hh : Keeps R h) {s path t x} :
    (m : List (Bytes × Val)) → mergeMap h s path m = some (t, x) → R s t
  | [], e => by rw [mergeMap] at e; exact id_keeps hR e
  | (k, v) :: m, e => by
    rw [mergeMap] at e
    exact andThen_keeps hR (fun e => merge_keeps hR hh v e) (fun e => mergeMap_keeps hR hh m e) e
end

theorem readConfig_keeps {w R} (hR : Step w R) {h} (hh : Keeps R h) {s a arg t x}
    (e : readConfig w h s a arg = some (t, x)) : R s t := by
  unfold readConfig at e
  split at e
  · split at e
    · exact merge_keeps hR hh _ e
    · exact id_keeps hR e
    · exact id_keeps hR e
  · exact id_keeps hR e
  · exact id_keeps hR e

theorem handle_keeps {w R} (hR : Step w R) : (fuel : Nat) → Keeps R (handle w fuel)
  | 0 => fun _ _ _ _ _ e => by cases e
  | fuel + 1 => fun s id v t x e => by
    rw [handle] at e
    cases ho : s.entry id with
    | none => rw [ho] at e; exact id_keeps hR e
    | some o =>
      rw [ho] at e
      dsimp only at e
      cases ha : isConfig o.cfg.action with
      | false => exact hR.act ho ha e
      | true =>
        unfold handleOpt at e
        cases hact : o.cfg.action <;> rw [hact] at ha e <;> first
          | (cases ha; done)
          | exact readConfig_keeps hR (handle_keeps hR fuel) e

theorem handleOption_keeps {w R} (hR : Step w R) {fuel s id arg t x}
    (e : handleOption w fuel s id arg = some (t, x)) : R s t := by
  unfold handleOption at e
  split at e
  · exact id_keeps hR e
  · split at e
    · exact handle_keeps hR fuel _ _ _ _ _ e
    · exact id_keeps hR e
    · exact id_keeps hR e

theorem forEach_keeps {w R} (hR : Step w R) {α : Type} {f : St → α → Res} {xs : List α} 
    (hf : ∀ {s a t x}, a ∈ xs → f s a = some (t, x) → R s t) {s t : St} {x : Out Unit}
    (e : forEach f s xs = some (t, x)) : R s t := by
  induction xs generalizing s t x with
  | nil => exact id_keeps hR e
  | cons a xs ih =>
    rw [forEach] at e
    exact andThen_keeps hR (fun e => hf (by simp) e) (fun e => ih (fun h e => hf (by simp [h]) e) e) e

theorem events_keeps {w R} (hR : Step w R) {fuel : Nat} {es : List Event} {s t : St} {x : Out Bool}
    (e : events w fuel s es = some (t, x)) : R s t := by
  induction es generalizing s t x with
  | nil => cases e; exact hR.refl _
  | cons ev es ih =>
    rw [events] at e
    split at e
    · cases e; exact hR.refl _
    · split at e
      · cases e
      · next h1 => exact hR.trans (handleOption_keeps hR h1) (ih e)
      · next h1 => cases e; exact handleOption_keeps hR h1
      · next h1 => cases e; exact handleOption_keeps hR h1

theorem takeArgs_keeps {w R} (hR : Step w R) {fuel : Nat} {ids : List Int32} {s t : St} {rest : List Text} {x : Out Unit}
    (e : takeArgs w fuel s ids rest = some (t, x)) : R s t := by
  induction ids generalizing s t x rest with
  | nil => exact id_keeps hR e
  | cons id ids ih =>
    rw [takeArgs] at e
    split at e
    · exact id_keeps hR e
    · split at e
      · split at e
        · exact id_keeps hR e
        · exact andThen_keeps hR (fun e => forEach_keeps hR (fun _ e => handleOption_keeps hR e) e) (fun e => ih e) e
      · exact id_keeps hR e
      · exact id_keeps hR e

theorem fromEnv_keeps {w R} (hR : Step w R) {fuel : Nat} {s t : St} {id : Int32} {o : Opt} {x : Out Unit}
    (e : fromEnv w fuel s id o = some (t, x)) : R s t := by
  unfold fromEnv at e
  split at e
  · exact id_keeps hR e
  · split at e
    · split at e
      · exact id_keeps hR e
      · exact handleOption_keeps hR e
    · exact id_keeps hR e
    · exact id_keeps hR e

/-- The stages of a call that returns. -/
structure Stages (w : World) (fuel : Nat) (s : St) (es : List Event) (rest : List Text) (t : St) (v : Val)
    (s0 s1 s2 s3 : St) : Prop where
  help : addHelpOptions s = (s0, .ok ())
  init : forEach (initOne w fuel) s0 (s0.reg.optionMap.map (·.1)) = some (s1, .ok ())
  opts : events w fuel s1 es = some (s2, .ok true)
  args : takeArgs w fuel s2 s2.reg.arguments rest = some (s3, .ok ())
  final : forEach (finalizeOpt w) s3 (s3.reg.optionMap.map (·.1)) = some (t, .ok ())
  groups : finalizeGroups t t.groups = .ok ()
  form : formResult t.reg.optionMap (.map []) = .ok v
  quiet : t.printAdv = false ∧ t.printHelp = false ∧ t.printConfig = false

theorem helpEnd_returned {w : World} {s t : St} {v : Val} {adv : Bool} : helpEnd w s adv ≠ .returned t v := by
  unfold helpEnd
  split <;> nofun

theorem printed_returned {w : World} {s t : St} {v : Val} {x : End} (h : printed w s x = .returned t v) :
    x = .returned t v ∧ s.printAdv = false ∧ s.printHelp = false ∧ s.printConfig = false := by
  unfold printed at h
  split at h
  · exact absurd h helpEnd_returned
  · split at h
    · exact absurd h helpEnd_returned
    · split at h
      · split at h <;> cases h
      · next h1 h2 h3 => exact ⟨h, by simpa using h1, by simpa using h2, by simpa using h3⟩

theorem report_returned {w : World} {r : Res} {t : St} {v : Val} (h : report w r = some (.returned t v)) :
    r = some (t, .ok ()) ∧ formResult t.reg.optionMap (.map []) = .ok v ∧
    t.printAdv = false ∧ t.printHelp = false ∧ t.printConfig = false := by
  match r, h with
  | some (s, .ok _), h =>
    simp only [report, Option.some.injEq] at h
    unfold finish at h
    obtain ⟨h1, h2⟩ := printed_returned h
    split at h1
    · next hf => cases h1; exact ⟨rfl, hf, h2⟩
    · cases h1
    · cases h1
  | some (s, .throw e), h =>
    simp only [report, Option.some.injEq] at h
    obtain ⟨h1, _⟩ := printed_returned h
    cases h1
  | some (s, .ub), h => simp [report] at h

theorem parse_stages {w fuel s es rest t v} (h : parse w fuel s es rest = some (.returned t v)) :
    ∃ s0 s1 s2 s3, Stages w fuel s es rest t v s0 s1 s2 s3 := by
  unfold parse at h
  split at h
  · cases h
  · cases h
  · next s0 _ h0 =>
    split at h
    · next s1 _ h1 =>
      generalize h2 : events w fuel s1 es = r at h
      unfold afterEvents at h
      split at h
      · cases h
      · next s2 =>
        obtain ⟨h3, h4, h5⟩ := report_returned h
        unfold afterOptions at h3
        split at h3
        · obtain ⟨s3, h6, h7⟩ := andThen_ok h3
          obtain ⟨s4, h8, h9⟩ := andThen_ok h7
          simp only [Option.some.injEq, Prod.mk.injEq] at h9
          obtain ⟨rfl, h9⟩ := h9
          exact ⟨s0, s1, s2, s3, h0, h1, h2, h6, h8, h9, h4, h5⟩
        · cases h3
        · cases h3
      · split at h
        · cases h
        · cases (report_returned h).1
        · cases h
      · cases (report_returned h).1
      · cases (report_returned h).1
    · next h1 =>
      have := (report_returned h).1
      exact absurd this (h1 t ())

end Verif.Args
