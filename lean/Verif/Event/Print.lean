import Verif.Event.Model
import Verif.Dec.AsTextProps
import Verif.Val.Message
/-!
# Printed events (src/EventBuffer.cc 81-124)

What `Event::Print` writes for debugging, and what it tells.
-/

namespace Verif.Event
open Verif

/-! ## The model -/

/-- The name of the type (src/EventBuffer.cc 83-121). -/
def Kind.name : Kind → Bytes
  | .beginDoc => "BEGIN_DOCUMENT".toUTF8.toList
  | .endDoc => "END_DOCUMENT".toUTF8.toList
  | .beginMap => "BEGIN_MAP".toUTF8.toList
  | .endMap => "END_MAP".toUTF8.toList
  | .beginList => "BEGIN_LIST".toUTF8.toList
  | .endList => "END_LIST".toUTF8.toList
  | .bool _ => "SCALAR_BOOL".toUTF8.toList
  | .flt _ => "SCALAR_FLOAT".toUTF8.toList
  | .str _ => "SCALAR_STRING".toUTF8.toList
  | .null => "SCALAR_NULL".toUTF8.toList
  | .int _ => "SCALAR_INT".toUTF8.toList
  | .uint _ => "SCALAR_UINT".toUTF8.toList
  | .blob _ => "SCALAR_BLOB".toUTF8.toList

/-- What is printed behind the name (src/EventBuffer.cc 90-118): lengths, truth values as words (`boolalpha`), doubles with six digits,
strings as they are. -/
def Ev.arg (e : Ev) : Option Bytes :=
  match e.kind with
  | .beginMap => some (natDec e.len)
  | .beginList => some (natDec e.len)
  | .bool b => some (if b then "true".toUTF8.toList else "false".toUTF8.toList)
  | .flt d => some (Dec.floatText (Num.ofDouble d))
  | .str s => some s
  | .int i => some (JsonEmit.intDec i.toInt)
  | .uint u => some (natDec u.toNat)
  | _ => none

/-- `Event::Print` (src/EventBuffer.cc 81-124) on a stream with the default format.  The case of an unknown type does not arise: every
constructor sets one of the types. -/
def Ev.print (e : Ev) : Bytes :=
  "Event(".toUTF8.toList ++ (e.kind.name ++ ((match e.arg with | none => [] | some t => [44, 32] ++ t) ++ [41]))

/-! ## The claim -/

/-- Specification: events that a reader of the text cannot tell apart: blobs, and doubles that agree to six digits; all others are the
same event with the same number of elements. -/
def Alike (a b : Ev) : Prop :=
  match a.kind, b.kind with
  | .blob _, .blob _ => True
  | .flt x, .flt y => Dec.floatText (Num.ofDouble x) = Dec.floatText (Num.ofDouble y)
  | .beginMap, .beginMap => a.len = b.len
  | .beginList, .beginList => a.len = b.len
  | k, l => k = l

theorem name_chars (k : Kind) : ∀ c ∈ k.name, (c != 44 && c != 41) = true := by
  cases k <;> (show ∀ c ∈ String.toUTF8 _ |>.toList, _) <;> decide +kernel

theorem name_split (k : Kind) (t : Option Bytes) (r : Bytes) :
    (k.name ++ ((match t with | none => [] | some t => [44, 32] ++ t) ++ (41 :: r))).takeWhile (fun c => c != 44 && c != 41) = k.name := by
  rw [List.takeWhile_append_of_pos (name_chars k)]
  cases t <;> simp

theorem name_tag {k l : Kind} (h : k.name = l.name) : k.tag = l.tag := by
  have key : ∀ (i j : Fin 13), (["BEGIN_DOCUMENT", "END_DOCUMENT", "BEGIN_MAP", "END_MAP", "BEGIN_LIST", "END_LIST", "SCALAR_NULL",
      "SCALAR_BOOL", "SCALAR_STRING", "SCALAR_INT", "SCALAR_UINT", "SCALAR_FLOAT", "SCALAR_BLOB"][i]).toUTF8.toList =
      (["BEGIN_DOCUMENT", "END_DOCUMENT", "BEGIN_MAP", "END_MAP", "BEGIN_LIST", "END_LIST", "SCALAR_NULL",
      "SCALAR_BOOL", "SCALAR_STRING", "SCALAR_INT", "SCALAR_UINT", "SCALAR_FLOAT", "SCALAR_BLOB"][j]).toUTF8.toList → i = j := by
    decide +kernel
  have idx : ∀ k : Kind, ∃ i : Fin 13, k.tag = 2 ^ i.val ∧ k.name = (["BEGIN_DOCUMENT", "END_DOCUMENT", "BEGIN_MAP", "END_MAP",
      "BEGIN_LIST", "END_LIST", "SCALAR_NULL", "SCALAR_BOOL", "SCALAR_STRING", "SCALAR_INT", "SCALAR_UINT", "SCALAR_FLOAT",
      "SCALAR_BLOB"][i]).toUTF8.toList := by
    intro k
    cases k
    · exact ⟨0, rfl, rfl⟩
    · exact ⟨1, rfl, rfl⟩
    · exact ⟨2, rfl, rfl⟩
    · exact ⟨3, rfl, rfl⟩
    · exact ⟨4, rfl, rfl⟩
    · exact ⟨5, rfl, rfl⟩
    · exact ⟨6, rfl, rfl⟩
    · exact ⟨7, rfl, rfl⟩
    · exact ⟨8, rfl, rfl⟩
    · exact ⟨9, rfl, rfl⟩
    · exact ⟨10, rfl, rfl⟩
    · exact ⟨11, rfl, rfl⟩
    · exact ⟨12, rfl, rfl⟩
  obtain ⟨i, h1, h2⟩ := idx k
  obtain ⟨j, h3, h4⟩ := idx l
  rw [h2, h4] at h
  rw [h1, h3, key i j h]

theorem print_split {a b : Ev} (h : a.print = b.print) : a.kind.tag = b.kind.tag ∧ a.arg = b.arg := by
  have h1 := List.append_cancel_left h
  have hn : a.kind.name = b.kind.name := by
    have := congrArg (List.takeWhile (fun c => c != 44 && c != 41)) h1
    rwa [name_split, name_split] at this
  rw [hn] at h1
  have h2 := List.append_cancel_right (List.append_cancel_left h1)
  refine ⟨name_tag hn, ?_⟩
  cases ha : a.arg with
  | none => cases hb : b.arg with
    | none => rfl
    | some t => rw [ha, hb] at h2; simp at h2
  | some t => cases hb : b.arg with
    | none => rw [ha, hb] at h2; simp at h2
    | some u =>
      rw [ha, hb] at h2
      rw [List.append_cancel_left h2]

/-- C128.  The text of an event tells which event it is, but for blobs and for doubles that agree to six digits. -/
theorem print_tells (a b : Ev) : a.print = b.print ↔ Alike a b := by
  constructor
  · intro h
    obtain ⟨h1, h2⟩ := print_split h
    unfold Ev.arg at h2
    unfold Alike
    generalize a.kind = k at *
    generalize b.kind = l at *
    cases k <;> cases l <;>
      first
      | rfl
      | trivial
      | (exfalso; simp [Kind.tag] at h1; done)
      | skip
    · exact Ext.natDec_inj (Option.some.inj h2)
    · exact Ext.natDec_inj (Option.some.inj h2)
    · next x y =>
      have hne : "true".toUTF8.toList ≠ "false".toUTF8.toList := by decide +kernel
      cases x <;> cases y <;> first | rfl | exact absurd (Option.some.inj h2) hne | exact absurd (Option.some.inj h2).symm hne
    · exact congrArg Kind.str (Option.some.inj h2)
    · next x y =>
      have := Msg.intDec_injective (Option.some.inj h2)
      exact congrArg Kind.int (Int64.toInt_inj.1 this)
    · next x y =>
      have := Ext.natDec_inj (Option.some.inj h2)
      exact congrArg Kind.uint (UInt64.toNat_inj.1 this)
    · exact Option.some.inj h2
  · intro h
    have : a.kind.name = b.kind.name ∧ a.arg = b.arg := by
      unfold Alike at h
      unfold Ev.arg
      generalize a.kind = k at *
      generalize b.kind = l at *
      cases k <;> cases l <;> simp_all [Kind.name]
    rw [Ev.print, Ev.print, this.1, this.2]

/-- C128 is false of doubles and of blobs: 0.1 + 0.2 and 0.3 are printed alike, and so are all blobs. -/
theorem print_tells_false :
    (Ev.new (.flt 0x3FD3333333333334) none).print = (Ev.new (.flt 0x3FD3333333333333) none).print ∧
    (∀ x y : List Bytes, (Ev.new (.blob x) none).print = (Ev.new (.blob y) none).print) :=
  ⟨by decide +kernel, fun _ _ => rfl⟩

/-! ## Cases -/

example : (Ev.new (.str "a) b".toUTF8.toList) none).print = "Event(SCALAR_STRING, a) b)".toUTF8.toList := by decide +kernel
example : (Ev.new (.flt 0x3FF8000000000000) none).print = "Event(SCALAR_FLOAT, 1.5)".toUTF8.toList := by decide +kernel
example : (Ev.new (.int (-7)) none).print ≠ (Ev.new (.uint 7) none).print :=
  fun h => by cases (print_tells _ _).1 h

end Verif.Event
