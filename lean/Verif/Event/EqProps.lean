import Verif.Event.Props
/-!
# Comparing recordings (C33)
-/

namespace Verif.Event

/-- The kind of event stored for a call. -/
def Call.kind : Call → Kind
  | .beginDoc => .beginDoc | .endDoc => .endDoc | .beginMap _ => .beginMap | .endMap => .endMap
  | .beginList _ => .beginList | .endList => .endList | .null => .null | .bool b => .bool b
  | .str s => .str (cstr s) | .int i => .int i | .uint u => .uint u | .flt d => .flt d
  | .blob s => .blob s

/-- Two doubles, by their bits, are the same number: identical and not NaN, or both zero, or
both NaN. -/
def SameDouble (a b : UInt64) : Prop :=
  (isNaN a = false ∧ isNaN b = false ∧ (a = b ∨ (a <<< 1 = 0 ∧ b <<< 1 = 0))) ∨
  (isNaN a = true ∧ isNaN b = true)

/-- Two calls record the same event.  Announced lengths are not recorded; strings are read up to
the first NUL; blobs are the same when their bytes are. -/
inductive Same : Call → Call → Prop
  | beginDoc : Same .beginDoc .beginDoc
  | endDoc : Same .endDoc .endDoc
  | beginMap (n m) : Same (.beginMap n) (.beginMap m)
  | endMap : Same .endMap .endMap
  | beginList (n m) : Same (.beginList n) (.beginList m)
  | endList : Same .endList .endList
  | null : Same .null .null
  | bool (b) : Same (.bool b) (.bool b)
  | str {s t : Bytes} (h : s.takeWhile (· ≠ 0) = t.takeWhile (· ≠ 0)) : Same (.str s) (.str t)
  | int (i) : Same (.int i) (.int i)
  | uint (u) : Same (.uint u) (.uint u)
  | flt {a b : UInt64} (h : SameDouble a b) : Same (.flt a) (.flt b)
  | blob {s t : List Bytes} (h : s.flatten = t.flatten) : Same (.blob s) (.blob t)

/-- The two sequences of calls are the same events, position by position. -/
def SameAll (cs ds : List Call) : Prop :=
  cs.length = ds.length ∧ ∀ (i : Nat) (c d : Call), cs[i]? = some c → ds[i]? = some d → Same c d

/-- The two calls are of the same type (the same function of the emitter interface; for booleans
`EmitTrue` and `EmitFalse` record the same type). -/
def SameType (c d : Call) : Prop := c.kind.tag = d.kind.tag

theorem update_kind (e : Ev) : e.update.kind = e.kind := by
  unfold Ev.update
  split
  · split <;> rfl
  · rfl
  · rfl

theorem updateAt_kind (es : List Ev) (p : Option Nat) :
    (updateAt es p).map Ev.kind = es.map Ev.kind := by
  cases p with
  | none => rfl
  | some i =>
    simp only [updateAt]
    induction es generalizing i with
    | nil => cases i <;> rfl
    | cons e es ih =>
      cases i with
      | zero => simp [update_kind]
      | succ i => simp [ih]

theorem record_kind (b : Buf) (c : Call) :
    (record b c).events.map Ev.kind = b.events.map Ev.kind ++ [c.kind] := by
  cases c <;> simp [record, pushChild, updateAt_kind, Ev.new, Call.kind]

theorem recordAll_kind (cs : List Call) : ∀ b : Buf,
    (recordAll b cs).events.map Ev.kind = b.events.map Ev.kind ++ cs.map Call.kind := by
  induction cs with
  | nil => intro b; simp [recordAll]
  | cons c cs ih => intro b; rw [recordAll, ih, record_kind]; simp

theorem evEq_same {a b : Ev} {c d : Call} (ha : a.kind = c.kind) (hb : b.kind = d.kind)
    (ht : SameType c d) (hn : ∀ s, c ≠ .blob s) : evEq a b = true ↔ Same c d := by
  unfold SameType at ht
  cases c <;> cases d <;> simp only [Call.kind, Kind.tag] at ht ha hb <;> try omega
  case beginDoc => simp [evEq, ha, hb, Kind.tag, Same.beginDoc]
  case endDoc => simp [evEq, ha, hb, Kind.tag, Same.endDoc]
  case beginMap => simp [evEq, ha, hb, Kind.tag, Same.beginMap]
  case endMap => simp [evEq, ha, hb, Kind.tag, Same.endMap]
  case beginList => simp [evEq, ha, hb, Kind.tag, Same.beginList]
  case endList => simp [evEq, ha, hb, Kind.tag, Same.endList]
  case null => simp [evEq, ha, hb, Kind.tag, Same.null]
  case bool x y =>
    simp only [evEq, ha, Ev.bits, hb]
    constructor
    · intro h
      have : x = y := by revert h; cases x <;> cases y <;> decide
      subst this; exact .bool x
    · intro h; cases h; cases x <;> decide
  case str s t =>
    simp only [evEq, ha, Ev.s, hb, beq_iff_eq]
    exact ⟨fun h => .str h, fun h => by cases h with | str h => exact h⟩
  case int i j =>
    simp only [evEq, ha, Ev.bits, hb, beq_iff_eq]
    constructor
    · intro h
      have : i = j := by cases i; cases j; exact congrArg Int64.ofUInt64 h
      subst this; exact .int i
    · intro h; cases h; rfl
  case uint u v =>
    simp only [evEq, ha, Ev.bits, hb, beq_iff_eq]
    exact ⟨fun h => by subst h; exact .uint u, fun h => by cases h; rfl⟩
  case flt x y =>
    simp only [evEq, ha, Ev.bits, hb, dblEq, Bool.or_eq_true, Bool.and_eq_true, Bool.not_eq_true',
      beq_iff_eq]
    constructor
    · rintro (⟨⟨h1, h2⟩, h3⟩ | h)
      · exact .flt (.inl ⟨h1, h2, h3⟩)
      · exact .flt (.inr h)
    · rintro (_ | _ | _ | _ | _ | _ | _ | _ | _ | _ | _ | h | _)
      rcases h with ⟨h1, h2, h3⟩ | h
      · exact .inl ⟨⟨h1, h2⟩, h3⟩
      · exact .inr h
  case blob s t => exact absurd rfl (hn s)

theorem same_type {c d : Call} (h : Same c d) : SameType c d := by cases h <;> rfl

theorem equal_iff (cs ds : List Call) :
    equal (recordAll Buf.empty cs) (recordAll Buf.empty ds) = true ↔
      cs.length = ds.length ∧ ∀ (i : Nat) (a b : Ev),
        (recordAll Buf.empty cs).events[i]? = some a → (recordAll Buf.empty ds).events[i]? = some b →
        evEq a b = true := by
  have hl : ∀ cs, (recordAll Buf.empty cs).events.length = cs.length := by
    intro cs
    have := congrArg List.length (recordAll_kind cs Buf.empty)
    simpa [Buf.empty] using this
  unfold equal
  rw [Bool.and_eq_true, beq_iff_eq, hl, hl, List.all_eq_true]
  refine and_congr_right fun _ => ⟨?_, ?_⟩
  · intro h i a b h1 h2
    refine h (a, b) ?_
    rw [List.mem_iff_getElem?]
    exact ⟨i, by rw [List.getElem?_zip_eq_some]; exact ⟨h1, h2⟩⟩
  · intro h p hp
    obtain ⟨i, hi⟩ := List.mem_iff_getElem?.1 hp
    rw [List.getElem?_zip_eq_some] at hi
    exact h i p.1 p.2 hi.1 hi.2

theorem event_kind {cs : List Call} {i : Nat} {a : Ev}
    (h : (recordAll Buf.empty cs).events[i]? = some a) : ∃ c, cs[i]? = some c ∧ a.kind = c.kind := by
  have hk := congrArg (fun l => l[i]?) (recordAll_kind cs Buf.empty)
  have hc : ((recordAll Buf.empty cs).events.map Ev.kind)[i]? = some a.kind := by simp [h]
  have he : (Buf.empty.events.map Ev.kind ++ cs.map Call.kind) = cs.map Call.kind := rfl
  simp only [he, hc, List.getElem?_map] at hk
  obtain ⟨c, h1, h2⟩ := Option.map_eq_some_iff.1 hk.symm
  exact ⟨c, h1, h2.symm⟩

theorem event_of_call {cs : List Call} {i : Nat} {c : Call} (h : cs[i]? = some c) :
    ∃ a, (recordAll Buf.empty cs).events[i]? = some a ∧ a.kind = c.kind := by
  have hk := congrArg (fun l => l[i]?) (recordAll_kind cs Buf.empty)
  have hc : (cs.map Call.kind)[i]? = some c.kind := by simp [h]
  have he : (Buf.empty.events.map Ev.kind ++ cs.map Call.kind) = cs.map Call.kind := rfl
  simp only [he, hc, List.getElem?_map, Option.map_eq_some_iff] at hk
  exact hk

/-- C33, one direction, for all recordings: recordings of the same events compare equal. -/
theorem same_recordings_equal (cs ds : List Call) (h : SameAll cs ds) :
    equal (recordAll Buf.empty cs) (recordAll Buf.empty ds) = true := by
  rw [equal_iff]
  refine ⟨h.1, fun i a b ha hb => ?_⟩
  obtain ⟨c, hc, hac⟩ := event_kind ha
  obtain ⟨d, hd, hbd⟩ := event_kind hb
  have hs := h.2 i c d hc hd
  by_cases hn : ∀ s, c ≠ .blob s
  · exact (evEq_same hac hbd (same_type hs) hn).2 hs
  · have : ∃ s, c = .blob s := by
      apply Classical.byContradiction
      intro h; exact hn fun s e => h ⟨s, e⟩
    obtain ⟨s, rfl⟩ := this
    cases hs with
    | blob h => simp [evEq, hac, hbd, Call.kind, Kind.tag]

/-- C33 for recordings without blobs whose events have the same types position by position: they
compare equal exactly when they contain the same events. -/
theorem recordings_equal_iff_partial (cs ds : List Call)
    (ht : ∀ (i : Nat) (c d : Call), cs[i]? = some c → ds[i]? = some d → SameType c d)
    (hn : ∀ s, Call.blob s ∉ cs) :
    equal (recordAll Buf.empty cs) (recordAll Buf.empty ds) = true ↔ SameAll cs ds := by
  refine ⟨fun h => ?_, same_recordings_equal cs ds⟩
  rw [equal_iff] at h
  refine ⟨h.1, fun i c d hc hd => ?_⟩
  obtain ⟨a, ha, hac⟩ := event_of_call hc
  obtain ⟨b, hb, hbd⟩ := event_of_call hd
  refine (evEq_same hac hbd (ht i c d hc hd) ?_).1 (h.2 i a b ha hb)
  rintro s rfl
  exact hn s (List.mem_of_getElem? hc)

/-- C33 is false in general: the integer 0 and null record different events that compare equal
one way round and different the other way round; blobs with different bytes compare equal. -/
theorem recordings_equal_false :
    (equal (recordAll Buf.empty [.int 0]) (recordAll Buf.empty [.null]) = true ∧
      equal (recordAll Buf.empty [.null]) (recordAll Buf.empty [.int 0]) = false ∧
      ¬ SameAll [.int 0] [.null]) ∧
    (equal (recordAll Buf.empty [.blob [[1]]]) (recordAll Buf.empty [.blob [[2, 3]]]) = true ∧
      ¬ SameAll [.blob [[1]]] [.blob [[2, 3]]]) := by
  refine ⟨⟨by decide, by decide, ?_⟩, by decide, ?_⟩
  · intro h; exact nomatch h.2 0 _ _ rfl rfl
  · intro h
    cases h.2 0 _ _ rfl rfl with
    | blob h => exact absurd h (by decide)

example : equal (recordAll Buf.empty [.beginList 2, .flt 0x8000000000000000, .str [97, 0, 98], .endList])
    (recordAll Buf.empty [.beginList (-1), .flt 0, .str [97], .endList]) = true ∧
  equal (recordAll Buf.empty [.beginList 2, .str [97], .endList])
    (recordAll Buf.empty [.beginList 2, .str [98], .endList]) = false := by decide

end Verif.Event
