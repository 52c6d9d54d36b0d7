import Verif.Reset.XmlLeft
/-!
# C118 A parser that was reset reads like a new one
-/

namespace Verif.Reset
open Verif Verif.JsonTok Verif.JsonDrv Verif.Build
open Verif.Xml (St RNode nodeOf)

/-! ## JSON -/

theorem feed_status {fo : FloatOps} {p p' : JP} {c : UInt8} (h : p.status ≠ .start ∧ p.status ≠ .done)
    (he : feed fo p c = .ok p') : p'.status ≠ .start ∧ p'.status ≠ .done := by
  simp only [feed] at he
  cases hs : charStep p.tok c with
  | ub => simp [hs] at he
  | cont t evs =>
    simp only [hs] at he
    obtain ⟨q, hq, he⟩ := Out.bind_eq_ok.1 he
    obtain ⟨b, -, hq⟩ := Out.bind_eq_ok.1 hq
    simp only [Out.pure_eq, Out.ok.injEq] at hq he
    have hq : q.status ≠ .start ∧ q.status ≠ .done := by
      rw [← hq]; dsimp only
      split
      · simp
      · exact h
    subst he
    split
    · split <;> simp
    · exact hq
  | rej t evs =>
    simp only [hs] at he
    obtain ⟨q, hq, he⟩ := Out.bind_eq_ok.1 he
    obtain ⟨b, -, hq⟩ := Out.bind_eq_ok.1 hq
    simp only [Out.pure_eq, Out.ok.injEq] at hq he
    have hq : q.status ≠ .start ∧ q.status ≠ .done := by
      rw [← hq]; dsimp only
      split
      · simp
      · exact h
    subst he
    split
    · simp
    · exact hq

theorem parseBlock_status {fo : FloatOps} : ∀ (cs : Bytes) (p : JP) (r : JP × Bytes), p.status ≠ .start ∧ p.status ≠ .done →
    parseBlock fo p cs = .ok r → (r.1.status ≠ .start ∧ r.1.status ≠ .done) ∧ (r.2 ≠ [] → running r.1 = false)
  | [], _, _, h, he => by simp only [parseBlock, Out.ok.injEq] at he; subst he; exact ⟨h, fun h => absurd rfl h⟩
  | c :: cs, p, r, h, he => by
    simp only [parseBlock] at he
    split at he
    · obtain ⟨p', h1, he⟩ := Out.bind_eq_ok.1 he
      exact parseBlock_status cs p' r (feed_status h h1) he
    · rename_i hr
      simp only [Out.ok.injEq] at he; subst he
      exact ⟨h, fun _ => by simpa using hr⟩

theorem stopped {p : JP} (hb : Rooted p.build) (h : p.status ≠ .start ∧ p.status ≠ .done) (hr : running p = false) :
    p.status = .error ∨ p.status = .end := by
  have := hb.ne
  cases hs : p.status <;> simp_all [running]

theorem atEof_status (p : JP) : (atEof p).status = .error ∨ (atEof p).status = .end := by
  unfold atEof; split <;> simp

theorem parse_status {fo : FloatOps} : ∀ (bs : List Bytes) (p : JP) (r : JP × List Bytes), Rooted p.build →
    p.status ≠ .start ∧ p.status ≠ .done → parse fo p bs = .ok r → r.1.status = .error ∨ r.1.status = .end
  | [], p, r, hb, h, he => by
    simp only [parse, Out.ok.injEq] at he; subst he
    dsimp only
    split
    · exact atEof_status p
    · rename_i hr; exact stopped hb h (by simpa using hr)
  | [] :: rest, p, r, hb, h, he => by
    simp only [parse, Out.ok.injEq] at he; subst he
    dsimp only
    split
    · exact atEof_status p
    · rename_i hr; exact stopped hb h (by simpa using hr)
  | (c :: cs) :: rest, p, r, hb, h, he => by
    simp only [parse] at he
    split at he
    · obtain ⟨q, h1, he⟩ := Out.bind_eq_ok.1 he
      have hq := parseBlock_rooted _ _ _ hb h1
      have hs := parseBlock_status _ _ _ h h1
      split at he
      · exact parse_status rest _ r hq hs.1 he
      · rename_i hl
        simp only [Out.ok.injEq] at he; subst he
        exact stopped hq hs.1 (hs.2 hl)
    · rename_i hr
      simp only [Out.ok.injEq] at he; subst he
      exact stopped hb h (by simpa using hr)

/-- C118: a JSON parser in any state, with any number of handlers of earlier calls left on its stack, reads after `Reset`
what a new parser reads: the same value, or the same exception, and leaves the same input; no old handler is called. -/
theorem json_reset (left : Bool) (fo : FloatOps) (p : JP) (blocks : List Bytes) :
    jparseVariant left fo (jreset p) blocks = JsonDrv.deserialize fo blocks := by
  have hb : Rooted ⟨[.root .null true], .null, false⟩ := ⟨.null, rfl⟩
  have hinit : BState.init.frames ≠ [] := by simp [BState.init]
  have h0 : ∀ e, topEvent left fo.fltText BState.init e = event fo.fltText BState.init e := fun e => topEvent_eq (.inr hinit)
  have h1 : event fo.fltText BState.init .beginDoc = .ok ⟨[.root .null true], .null, false⟩ := rfl
  simp only [jparseVariant, jreset, h0, JsonDrv.deserialize, h1, Out.bind_ok, jparseVariant.go, JP.init]
  rw [jparse_eq _ _ hb]
  cases hp : parse fo ⟨Tok.init, .begin, 0, 1, 0, 0, ⟨[.root .null true], .null, false⟩, []⟩ blocks with
  | throw _ => rfl
  | ub => rfl
  | ok r =>
    obtain ⟨q, rest⟩ := r
    have hs := parse_status _ _ _ hb (by simp) hp
    have hq := parse_rooted _ _ _ hb hp
    simp only [Out.bind_ok]
    rcases hs with hs | hs <;> simp only at hs <;> rw [hs]
    simp only [topEvent_eq (.inr hq.ne)]

/-- A parser that stopped at `[}` in the middle of things, with old handlers below, reads `[]`. -/
example (fo : FloatOps) : ∃ l, jparseVariant true fo (jreset ⟨Tok.init, .error, 1, 1, 2, 2, ⟨[], .null, false⟩, []⟩) [[91, 93]] =
    .ok (.list [], l) := ⟨_, rfl⟩

/-- C118: without `Reset` a JSON parser that failed fails again, whatever comes. -/
theorem json_no_reset (left : Bool) (fo : FloatOps) (p : JP) (blocks : List Bytes) (h : p.status = .error) :
    jparseVariant left fo p blocks = .throw .runtime := by
  have hr : ∀ b, jrunning left { p with build := b } = false := by simp [jrunning, h]
  unfold jparseVariant
  rw [h]
  dsimp only
  unfold jparseVariant.go
  have hj : jparse left fo { p with build := BState.init } blocks = .ok ({ p with build := BState.init }, blocks) := by
    match blocks with
    | [] => simp [jparse, hr]
    | [] :: rest => simp [jparse, hr]
    | (c :: cs) :: rest => simp [jparse, hr]
  rw [h] at hj
  rw [hj]
  rfl

/-! ## MessagePack and bundle headers -/

/-- C118: a MessagePack parser that was reset. -/
theorem msgpack_reset (left : Bool) (D : Nat) (ft : UInt64 → Bytes) (pks : List Event.Pk) :
    mparseVariant left D ft pks = Event.deserialize D ft pks := by
  unfold mparseVariant Event.deserialize
  cases h : Event.unpack D [] pks with
  | none => rfl
  | some r =>
    obtain ⟨ev, rest⟩ := r
    simp only [Option.map_some, topEvents_doc left ft ev (unpack_mem _ _ _ _ h)]

/-- A list of two. -/
example (ft : UInt64 → Bytes) : ∃ b, mparseVariant true 32 ft [.array 2, .nil, .bool true] = some (.ok b) ∧
    ∃ x y, b.result = .list [x, y] := ⟨_, rfl, _, _, rfl⟩

/-- C118: a bundle header parser that was reset. -/
theorem bundle_reset {σ : Type} (left : Bool) (fo : FloatOps) (stale : Nat → Bool) (I : Bundle.Input σ) (fuel : Nat) (s : σ) :
    bparseVariant left fo stale I fuel s = Bundle.deserialize fo stale I fuel s := by
  unfold bparseVariant Bundle.deserialize
  cases h : Bundle.run I fuel fuel s .start with
  | none => rfl
  | some es =>
    dsimp only
    have : topEvents left fo.fltText BState.init (Bundle.pevs fo stale es) =
        events fo.fltText BState.init (Bundle.pevs fo stale es) := by
      rcases brun_start h with rfl | ⟨mid, rfl, hm⟩
      · rfl
      · simp only [Bundle.pevs, Bundle.BEv.pev, pevs_app]
        exact topEvents_doc left _ _ (pevs_mem _ _ hm)
    rw [this]

/-! ## Property lists -/

/-- C118: a property list parser that was reset with no handlers left: the states it was in do not matter. -/
theorem xml_reset (fo : FloatOps) (stale : Nat → Bool) (old : List St) (empty : Bool) (ns : List RNode) :
    xparseVariant false fo stale (xreset old) empty ns = Xml.deserialize fo stale ns := by
  have h1 : xenter false fo.fltText (xreset old) BState.init = .ok (.go (.end :: old) BState.init) := by
    simp [xenter, xreset, BState.init]
  have h2 : Xml.enter fo.fltText [.start] BState.init = .ok (.go [.end] BState.init) := by simp [Xml.enter, BState.init]
  unfold xparseVariant Xml.deserialize
  rw [h1, h2]
  simp only [Out.bind_ok]
  rw [xrun_false, run_empty ns stale [.end] true empty _ (.inr (by simp [content]))]
  exact run_under (old := old) ns stale [.end] empty _ (by simp)

theorem xrun_others {left : Bool} {fo : FloatOps} {st : List St} {e : Bool} {b : BState} (ns : List RNode) :
    ∀ (pre : List RNode) (stale : Nat → Bool), (∀ n ∈ pre, n = .other) →
    xrun left fo stale st e b (pre ++ ns) = xrun left fo (fun k => stale (k + pre.length)) st e b ns
  | [], _, _ => rfl
  | n :: pre, stale, h => by
    have hn := h n List.mem_cons_self
    subst hn
    simp only [List.cons_append, xrun, xnode, Out.bind_ok, if_true]
    rw [xrun_others ns pre _ fun n hn => h n (List.mem_cons_of_mem _ hn)]
    simp only [List.length_cons, Nat.add_assoc]

/-- C118: a property list parser that was reset, whatever was left: a document, that is one `plist` element with no other
inside, reads as with a new parser, and no old handler is called. -/
theorem xml_reset_document (left : Bool) (fo : FloatOps) (stale : Nat → Bool) (old : List St) (empty : Bool)
    (pre body : List RNode) (name : Bytes) (hpre : ∀ n ∈ pre, n = .other) (hname : nodeOf name = .root)
    (hbody : ∀ m i, RNode.elem m i ∈ body → nodeOf m ≠ .root) :
    xparseVariant left fo stale (xreset old) empty (pre ++ .elem name false :: body) =
      Xml.deserialize fo stale (pre ++ .elem name false :: body) := by
  rw [← xml_reset fo stale old empty]
  have h1 : ∀ l, xenter l fo.fltText (xreset old) BState.init = .ok (.go (.end :: old) BState.init) := by
    intro l; simp [xenter, xreset, BState.init]
  have hinit : BState.init.frames ≠ [] := by simp [BState.init]
  unfold xparseVariant
  rw [h1, h1]
  simp only [Out.bind_ok]
  rw [xrun_others _ _ _ hpre, xrun_others _ _ _ hpre]
  have hnode : ∀ l s, xnode l fo s (.end :: old) empty BState.init (.elem name false) =
      .ok ⟨true, .root :: .end :: old, empty, ⟨[.root .null true], .null, false⟩⟩ := by
    intro l s
    rw [xnode_eq (.inr hinit)]
    simp only [Xml.node, if_neg hinit, hname, Xml.beginElement]
    rfl
  simp only [xrun, hnode, Out.bind_ok, if_true]
  have hin : Inside (.root :: .end :: old) := ⟨[], old, rfl, by simp⟩
  rw [xrun_inside _ _ _ _ _ ⟨.null, rfl⟩ hin hbody, xrun_inside _ _ _ _ _ ⟨.null, rfl⟩ hin hbody]

/-- "a" -/
def tA : Bytes := [97]

/-- `<plist><array><string>a</string></array></plist>` on a parser that failed inside a map, with old handlers below. -/
example (fo : FloatOps) : xparseVariant true fo (fun _ => false) (xreset [.key, .map, .root, .end]) false
    ([.other] ++ .elem Xml.nRoot false ::
      [.elem Xml.nList false, .elem Xml.nString false, .text tA, .endElem Xml.nString, .endElem Xml.nList, .endElem Xml.nRoot]) =
    .ok (.list [.str tA]) := rfl

/-- C118, finding: with old handlers left, a text in two pieces outside a `plist` element (`<string>a<!-- -->a</string>`)
calls one of them, which is undefined; a new parser throws. -/
theorem xml_reset_false : ¬ ∀ (fo : FloatOps) (stale : Nat → Bool) (ns : List RNode),
    xparseVariant true fo stale (xreset [.end]) true ns = Xml.deserialize fo stale ns := by
  intro h
  have := h ⟨fun _ => 0, fun _ => []⟩ (fun _ => false)
    [.elem Xml.nString false, .text tA, .other, .text tA, .endElem Xml.nString]
  have h1 : xparseVariant true ⟨fun _ => 0, fun _ => []⟩ (fun _ => false) (xreset [.end]) true
    [.elem Xml.nString false, .text tA, .other, .text tA, .endElem Xml.nString] = .ub := rfl
  have h2 : Xml.deserialize ⟨fun _ => 0, fun _ => []⟩ (fun _ => false)
    [.elem Xml.nString false, .text tA, .other, .text tA, .endElem Xml.nString] = .throw .runtime := rfl
  rw [h1, h2] at this
  cases this

/-- C118, finding: the same text may be read or refused, depending on what was left by calls before: `<string>a</string>`
is read with old handlers on the stack and refused without. -/
theorem xml_reset_value_false (fo : FloatOps) (stale : Nat → Bool) :
    xparseVariant true fo stale (xreset [.end]) true [.elem Xml.nString false, .text tA, .endElem Xml.nString] = .ok (.str tA) ∧
    xparseVariant false fo stale (xreset [.end]) true [.elem Xml.nString false, .text tA, .endElem Xml.nString] = .throw .runtime :=
  ⟨rfl, rfl⟩

end Verif.Reset
