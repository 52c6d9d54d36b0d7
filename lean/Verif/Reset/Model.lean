import Verif.Json.Driver
import Verif.Bundle.Model
import Verif.Event.MsgPack
import Verif.Xml.Model
/-!
# A parser that is used again (`Reset`)

`ParseVariant` (src/VariantParsing.cc 208-214) pushes a handler that points to its own local variables.  When it leaves
with an exception, or because the input has ended, that handler and those for the containers open at the time stay on
the action stack of the parser, and nothing takes them off: `Reset` does not.  A call of one of them later follows a
pointer to variables that are gone.
-/

namespace Verif.Reset
open Verif Verif.JsonTok Verif.JsonDrv Verif.Build

/-- `TopAction()->...` (include/Variant/Parser.h 92-96): the handlers of this call of `ParseVariant` are `s.frames`;
below them there are, if `left`, handlers of earlier calls. -/
def topEvent (left : Bool) (ft : UInt64 → Bytes) (s : BState) (e : PEv) : Out BState :=
  if s.frames = [] ∧ left then .ub else event ft s e

/-- A sequence of events. -/
def topEvents (left : Bool) (ft : UInt64 → Bytes) (s : BState) : List PEv → Out BState
  | [] => .ok s
  | e :: es => do
    let s' ← topEvent left ft s e
    topEvents left ft s' es

/-! ## JSON -/

/-- The callbacks of one character (src/JSONParser.cc 25-92). -/
def jcallbacks (left : Bool) (fo : FloatOps) (s : BState) : List JEv → Out BState
  | [] => .ok s
  | e :: es => do
    let ev ← callbackEvent fo e
    let s' ← topEvent left fo.fltText s ev
    jcallbacks left fo s' es

/-- One character (src/JSONParser.cc 145-158), as `JsonDrv.feed`. -/
def jfeed (left : Bool) (fo : FloatOps) (p : JP) (c : UInt8) : Out JP :=
  let p := { p with charcount := p.charcount + 1,
                    column := if c = 10 then 0 else p.column + 1,
                    line := if c = 10 then p.line + 1 else p.line }
  let after (t : Tok) (evs : List JEv) : Out JP := do
    let b ← jcallbacks left fo p.build evs
    return { p with tok := t, build := b, log := p.log ++ evs,
                    status := if evs ≠ [] ∧ p.status = .begin then .ok else p.status,
                    depth := p.depth + (evs.map depthDelta).sum }
  match charStep p.tok c with
  | .ub => .ub
  | .cont t evs => do
    let p ← after t evs
    return if p.depth = 0 ∧ p.status = .ok then
      (if isDone p.tok then
        { p with status := .end, tok := { p.tok with stack := p.tok.stack.tail } }
       else { p with status := .error })
    else p
  | .rej t evs => do
    let p ← after t evs
    return if p.status = .ok then { p with status := .error } else p

/-- `(status == S_OK || status == S_BEGIN) && !action_stack.empty()` (src/JSONParser.cc 135, 145). -/
def jrunning (left : Bool) (p : JP) : Bool := (p.status = .ok ∨ p.status = .begin) ∧ (p.build.frames ≠ [] ∨ left = true)

/-- The inner loop of `Parse` (src/JSONParser.cc 145-159). -/
def jparseBlock (left : Bool) (fo : FloatOps) (p : JP) : Bytes → Out (JP × Bytes)
  | [] => .ok (p, [])
  | c :: cs =>
    if jrunning left p then do
      let p' ← jfeed left fo p c
      jparseBlock left fo p' cs
    else .ok (p, c :: cs)

/-- `Parse` (src/JSONParser.cc 134-163). -/
def jparse (left : Bool) (fo : FloatOps) (p : JP) : List Bytes → Out (JP × List Bytes)
  | [] => .ok (if jrunning left p then atEof p else p, [])
  | [] :: rest => .ok (if jrunning left p then atEof p else p, [] :: rest)
  | (c :: cs) :: rest =>
    if jrunning left p then do
      let (p', l) ← jparseBlock left fo p (c :: cs)
      if l = [] then jparse left fo p' rest else .ok (p', l :: rest)
    else .ok (p, (c :: cs) :: rest)

/-- `Reset` (src/JSONParser.cc 113-132): the members it sets (and the log, which is not part of the code). -/
def jreset (p : JP) : JP :=
  { p with tok := Tok.init, status := .start, line := 1, column := 0, charcount := 0, depth := 0, log := [] }

/-- `ParseVariant` on a JSON parser in any state (src/VariantParsing.cc 208-214, src/JSONParser.cc 165-201): a handler is
pushed, and `Run` is called until it returns 1 or the handler is done. -/
def jparseVariant (left : Bool) (fo : FloatOps) (p : JP) (blocks : List Bytes) : Out (Val × List Bytes) :=
  match p.status with
  | .start => do
    let b ← topEvent left fo.fltText BState.init .beginDoc
    go { p with status := .begin, build := b }
  | .done => .ok (.null, blocks)
  | _ => go { p with build := BState.init }
where
  /-- `Run` beginning in `S_BEGIN`, `S_OK`, `S_ERROR` or `S_END`. -/
  go (p : JP) : Out (Val × List Bytes) := do
    let (p, rest) ← jparse left fo p blocks
    match p.status with
    | .error => .throw .runtime
    | .end => do
      let b ← topEvent left fo.fltText p.build .endDoc
      return (b.result, rest)
    | _ => .ok (p.build.result, rest)     -- the handler is done: it is outside a document

/-! ## MessagePack and bundle headers -/

/-- `ParseVariant` on a MessagePack parser that was `Reset` (src/MsgPackParser.cc 194-248). -/
def mparseVariant (left : Bool) (maxDepth : Nat) (ft : UInt64 → Bytes) (pks : List Event.Pk) : Option (Out BState) :=
  (Event.unpack maxDepth [] pks).map fun (ev, _) => topEvents left ft BState.init (.beginDoc :: (ev ++ [.endDoc]))

/-- `ParseVariant` on a bundle header parser that was `Reset` (src/BundleHdrParser.cc 83-187). -/
def bparseVariant {σ : Type} (left : Bool) (fo : FloatOps) (stale : Nat → Bool) (I : Bundle.Input σ) (fuel : Nat) (s : σ) :
    Option (Out Val) :=
  match Bundle.run I fuel fuel s .start with
  | none => none
  | some es => some do
    let b ← topEvents left fo.fltText BState.init (Bundle.pevs fo stale es)
    return b.result

/-! ## Property lists -/

open Verif.Xml (St After RNode Entry nodeOf readInt readBlob)

/-- `BeginElement` (src/XMLPLISTParser.cc 137-222), as `Xml.beginElement`. -/
def xbegin (left : Bool) (ft : UInt64 → Bytes) (st : List St) (empty : Bool) (b : BState) (n : St) (isEmpty : Bool) : Out After :=
  let scalar (v : Val) : Out After := do
    let b ← topEvent left ft b (.scalar v)
    return ⟨!isEmpty, if isEmpty then st else n :: st, empty, b⟩
  let content : Out After := if isEmpty then .throw .runtime else .ok ⟨true, n :: st, true, b⟩
  match n with
  | .null => scalar .null
  | .root => do
    let b ← topEvent left ft b .beginDoc
    return ⟨!isEmpty, n :: st, empty, b⟩
  | .true => scalar (.bool true)
  | .false => scalar (.bool false)
  | .integer => content
  | .float => content
  | .string => content
  | .blob => content
  | .map => do
    let b ← topEvent left ft b .beginMap
    return ⟨false, (if isEmpty then .emptyMap else .map) :: st, empty, b⟩
  | .key => content
  | .list => do
    let b ← topEvent left ft b .beginList
    return ⟨false, (if isEmpty then .emptyList else .list) :: st, empty, b⟩
  | _ => .throw .runtime

/-- `ProcessText` (src/XMLPLISTParser.cc 224-291), as `Xml.processText`. -/
def xtext (left : Bool) (fo : FloatOps) (stale : Bool) (st : List St) (empty : Bool) (b : BState) (s : Bytes) : Out After :=
  let value (v : Val) : Out After := do
    let b ← topEvent left fo.fltText b (.scalar v)
    return ⟨true, st, false, b⟩
  match st with
  | [] => .ub
  | .null :: _ => .ok ⟨true, st, empty, b⟩
  | .root :: _ => .ok ⟨true, st, empty, b⟩
  | .true :: _ => .ok ⟨true, st, empty, b⟩
  | .false :: _ => .ok ⟨true, st, empty, b⟩
  | .map :: _ => .ok ⟨true, st, empty, b⟩
  | .list :: _ => .ok ⟨true, st, empty, b⟩
  | .integer :: _ => value (readInt stale s)
  | .float :: _ => value (.flt (fo.strtod s))
  | .string :: _ => value (.str s)
  | .blob :: _ => do
    let v ← readBlob s
    value v
  | .key :: _ => value (.str s)
  | _ :: _ => .throw .runtime

/-- `EndElement` (src/XMLPLISTParser.cc 293-338), as `Xml.endElement`. -/
def xend (left : Bool) (ft : UInt64 → Bytes) (st : List St) (empty : Bool) (b : BState) (n : St) : Out After :=
  match st with
  | [] => .ub
  | t :: st =>
    if t ≠ n then .throw .runtime
    else
      let done (b : BState) : Out After := .ok ⟨false, st, empty, b⟩
      match n with
      | .null => done b
      | .true => done b
      | .false => done b
      | .integer => if empty then .throw .runtime else done b
      | .float => if empty then .throw .runtime else done b
      | .blob => if empty then .throw .runtime else done b
      | .string => if empty then do done (← topEvent left ft b (.scalar (.str []))) else done b
      | .key => if empty then do done (← topEvent left ft b (.scalar (.str []))) else done b
      | .root => do done (← topEvent left ft b .endDoc)
      | .map => do done (← topEvent left ft b .endMap)
      | .list => do done (← topEvent left ft b .endList)
      | _ => .throw .runtime

/-- One node (src/XMLPLISTParser.cc 89-121). -/
def xnode (left : Bool) (fo : FloatOps) (stale : Bool) (st : List St) (empty : Bool) (b : BState) (n : RNode) : Out After :=
  match n with
  | .other => .ok ⟨true, st, empty, b⟩
  | .error => .throw .runtime
  | .elem name isEmpty =>
    if b.frames = [] ∧ left = false then .throw .runtime else xbegin left fo.fltText st empty b (nodeOf name) isEmpty
  | .endElem name => if b.frames = [] ∧ left = false then .throw .runtime else xend left fo.fltText st empty b (nodeOf name)
  | .text s => if b.frames = [] ∧ left = false then .throw .runtime else xtext left fo stale st empty b s

/-- The beginning of the outer loop of `Run` (src/XMLPLISTParser.cc 62-88) with the loop of `ParseVariant`
(src/VariantParsing.cc 212), which ends after a `Run` that returns 0 if its handler is done. -/
def xenter (left : Bool) (ft : UInt64 → Bytes) : List St → BState → Out Entry
  | [], b => if b.frames = [] ∧ left = false then .ok (.stop b.result) else .ub
  | t :: st, b =>
    if b.frames = [] ∧ left = false then .ok (.stop b.result)
    else
      match t with
      | .start => .ok (.go (.end :: st) b)
      | .end => .ok (.stop b.result)
      | .emptyMap => do
        let b ← topEvent left ft b .endMap
        if b.frames = [] then .ok (.stop b.result) else xenter left ft st b
      | .emptyList => do
        let b ← topEvent left ft b .endList
        if b.frames = [] then .ok (.stop b.result) else xenter left ft st b
      | .root => .ok (.go (t :: st) b)
      | .map => .ok (.go (t :: st) b)
      | .list => .ok (.go (t :: st) b)
      | _ => .throw .runtime

/-- The nodes one after the other (src/XMLPLISTParser.cc 62-135). -/
def xrun (left : Bool) (fo : FloatOps) (stale : Nat → Bool) (st : List St) (empty : Bool) (b : BState) : List RNode → Out Val
  | [] =>
    match st with
    | .end :: _ => .ok b.result
    | [] => .ub
    | _ => .throw .runtime
  | n :: ns => do
    let a ← xnode left fo (stale 0) st empty b n
    if a.loop then xrun left fo (fun k => stale (k + 1)) a.stack a.empty a.b ns
    else
      match ← xenter left fo.fltText a.stack a.b with
      | .stop v => .ok v
      | .go st b => xrun left fo (fun k => stale (k + 1)) st a.empty b ns

/-- `Reset` (src/XMLPLISTParser.cc 409-423): the state stack is not cleared. -/
def xreset (old : List St) : List St := .start :: old

/-- `ParseVariant` on a property list parser (src/VariantParsing.cc 208-214); `empty` is what the parser read last
left. -/
def xparseVariant (left : Bool) (fo : FloatOps) (stale : Nat → Bool) (st : List St) (empty : Bool) (ns : List RNode) :
    Out Val := do
  match ← xenter left fo.fltText st BState.init with
  | .stop v => return v
  | .go st b => xrun left fo stale st empty b ns

end Verif.Reset
