import Verif.Bundle.Doc
/-!
# Writing a bundle header
-/

namespace Verif.Bundle
open Verif Verif.JsonDrv
open Verif.Event (Call cstr)

theorem emits_append (ff : UInt64 → Bytes) (st : ESt) (a b : List Call) :
    emits ff st (a ++ b) = match emits ff st a with
      | none => none
      | some (st', o) => (emits ff st' b).map fun p => (p.1, o ++ p.2) := by
  induction a generalizing st with
  | nil =>
    simp only [List.nil_append, emits]
    cases emits ff st b <;> simp
  | cons c a ih =>
    simp only [List.cons_append, emits]
    cases h : emit ff st c with
    | none => rfl
    | some p =>
      obtain ⟨st1, o1⟩ := p
      simp only [ih]
      cases emits ff st1 a with
      | none => rfl
      | some q =>
        obtain ⟨st2, o2⟩ := q
        simp only [Option.map_some]
        cases emits ff st2 b <;> simp

theorem emits_one (ff : UInt64 → Bytes) (st : ESt) (c : Call) : emits ff st [c] = emit ff st c := by
  simp only [emits]
  cases emit ff st c with
  | none => rfl
  | some p => simp

theorem bool_text (b : Bool) : scalarText ff (.bool b) = some [if b then 49 else 48] := by cases b <;> rfl

theorem emits_scalar {ff : UInt64 → Bytes} {x : Val} {t : Bytes} (h : scalarText ff x = some t) (st : ESt) :
    emits ff st (Event.valTree x).calls = emitValue st t := by
  cases x with
  | bool b => cases b <;> cases h <;> simp [Event.valTree, Event.Tree.calls, Event.Atom.call, emits_one, emit]
  | list _ => cases h
  | map _ => cases h
  | blob _ => cases h
  | _ => cases h; simp [Event.valTree, Event.Tree.calls, Event.Atom.call, emits_one, emit, intText, cstr, upToNul]

/-- Only scalars can be in a list. -/
theorem emits_not_scalar {ff : UInt64 → Bytes} {x : Val} (h : scalarText ff x = none) {st : ESt} (hst : st = .list ∨ st = .listStart) :
    emits ff st (Event.valTree x).calls = none := by
  cases x with
  | bool b => cases b <;> cases h
  | list xs => rcases hst with rfl | rfl <;> simp [Event.valTree, Event.Tree.calls, emits, emit]
  | map xs => rcases hst with rfl | rfl <;> simp [Event.valTree, Event.Tree.calls, emits, emit]
  | blob s => simp [Event.valTree, Event.Tree.calls, Event.Atom.call, emits, emit]
  | _ => cases h

theorem emits_items (ff : UInt64 → Bytes) (xs : List Val) :
    emits ff .list (Event.callsList (Event.valTrees xs)) =
      (allSome (xs.map (scalarText ff))).map fun ts => (.list, (ts.map (124 :: ·)).flatten) := by
  induction xs with
  | nil => rfl
  | cons x xs ih =>
    simp only [Event.valTrees, Event.callsList, emits_append, List.map_cons]
    cases hx : scalarText ff x with
    | none => rw [emits_not_scalar hx (.inl rfl)]; rfl
    | some t =>
      rw [emits_scalar hx]
      simp only [emitValue, ih, allSome]
      cases allSome (xs.map (scalarText ff)) <;> simp

theorem intercalate_bars (t : Bytes) (ts : List Bytes) :
    List.intercalate [124] (t :: ts) = t ++ (ts.map (124 :: ·)).flatten := by
  induction ts generalizing t with
  | nil => simp [List.intercalate]
  | cons u ts ih =>
    rw [intercalate_cons _ (by simp), ih]
    simp

theorem emits_list (ff : UInt64 → Bytes) (xs : List Val) :
    emits ff .value (Event.valTree (.list xs)).calls = (memberText ff (.list xs)).map fun t => (.key, t ++ [10]) := by
  simp only [Event.valTree, Event.Tree.calls, memberText]
  cases xs with
  | nil => simp [Event.valTrees, Event.callsList, emits, emit, allSome, List.intercalate]
  | cons x xs =>
    have h0 : ∀ n cs, emits ff .value (.beginList n :: cs) = emits ff .listStart cs := by
      intro n cs
      simp only [emits, emit, if_true]
      cases emits ff .listStart cs <;> simp
    rw [h0]
    simp only [Event.valTrees, Event.callsList, emits_append, List.map_cons]
    cases hx : scalarText ff x with
    | none => rw [emits_not_scalar hx (.inr rfl)]; rfl
    | some t =>
      rw [emits_scalar hx]
      simp only [emitValue, emits_items, allSome]
      cases hs : allSome (xs.map (scalarText ff)) with
      | none => rfl
      | some ts =>
        simp only [Option.map_some, emits_one, emit]
        rw [intercalate_bars]
        simp

theorem emits_member (ff : UInt64 → Bytes) (x : Val) :
    emits ff .value (Event.valTree x).calls = (memberText ff x).map fun t => (.key, t ++ [10]) := by
  by_cases hl : ∃ xs, x = .list xs
  · obtain ⟨xs, rfl⟩ := hl
    exact emits_list ff xs
  · have hm : memberText ff x = scalarText ff x := by
      cases x with
      | list xs => exact absurd ⟨xs, rfl⟩ hl
      | _ => rfl
    rw [hm]
    cases hx : scalarText ff x with
    | some t => rw [emits_scalar hx]; rfl
    | none =>
      cases x with
      | bool b => cases b <;> cases hx
      | list xs => exact absurd ⟨xs, rfl⟩ hl
      | map m => simp [Event.valTree, Event.Tree.calls, emits, emit]
      | blob s => simp [Event.valTree, Event.Tree.calls, Event.Atom.call, emits, emit]
      | _ => cases hx

theorem emits_members (ff : UInt64 → Bytes) (m : List (Bytes × Val)) :
    emits ff .key (Event.callsPairs (Event.valPairs m)) =
      (allSome (m.map (memberLine ff))).map fun ls => (.key, ls.flatten) := by
  induction m with
  | nil => rfl
  | cons p m ih =>
    obtain ⟨k, x⟩ := p
    have hk : emits ff .key ((Event.Tree.atom (.str k)).calls) = some (.value, upToNul k ++ [58, 32]) := by
      simp [Event.Tree.calls, Event.Atom.call, emits_one, emit, emitValue, cstr, upToNul]
    simp only [Event.valPairs, Event.callsPairs, emits_append, hk, emits_member, List.map_cons]
    rw [show memberLine ff (k, x) = (memberText ff x).map fun t => upToNul k ++ [58, 32] ++ t ++ [10] from rfl]
    cases memberText ff x with
    | none => rfl
    | some t =>
      simp only [Option.map_some, ih, allSome]
      cases allSome (m.map (memberLine ff)) <;> simp

/-- C73.  What is written is the version and a line for every member, in key order; a value that is not a map of scalars
and lists of scalars is refused. -/
theorem serialize_text (ff : UInt64 → Bytes) (v : Val) : serialize ff v = headerText ff v := by
  unfold serialize
  rw [emits_append]
  cases v with
  | map m =>
    simp only [Event.valTree, Event.Tree.calls, emits, emit, headerText, emits_append, emits_members]
    cases allSome (m.map (memberLine ff)) with
    | none => rfl
    | some ls => simp [emits, emit]; rfl
  | _ => simp [Event.valTree, Event.Tree.calls, Event.Atom.call, emits, emit, emitValue, headerText]

end Verif.Bundle
