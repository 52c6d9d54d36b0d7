import Verif.Json.Tok
import Verif.Build.Model
import Verif.Base64.Model
/-!
# Model of `JSONParserImpl` (src/JSONParser.cc)

The tokenizer's callbacks are turned into parser events, the status machine follows the
characters, and `ParseVariant` runs it with the value builder.  Line, column and character
counters are modelled; the error text is not.
-/

namespace Verif.JsonDrv
open Verif.JsonTok Verif.Build

/-- `Status_t` (src/JSONParser.h). -/
inductive Status where
  | start | begin | ok | error | «end» | done
  deriving DecidableEq, Repr

/-- `MAGIC_BLOB_TAG` (src/BlobMagic.h): NUL, "BLOB". -/
def blobTag : Bytes := [0, 0x42, 0x4c, 0x4f, 0x42]

/-- The C library conversions the parser uses: `strtod` and `oss << double`
(implementation-defined rounding is outside the model). -/
structure FloatOps where
  strtod : Bytes → UInt64
  fltText : UInt64 → Bytes

/-- `StaticCallback` (src/JSONParser.cc 25-92): the event made for one callback. -/
def callbackEvent (fo : FloatOps) : JEv → Out PEv
  | .arrBegin => .ok .beginList
  | .arrEnd => .ok .endList
  | .objBegin => .ok .beginMap
  | .objEnd => .ok .endMap
  | .int i => .ok (.scalar (.int (Int64.ofInt i)))
  | .uint n => .ok (.scalar (.uint (UInt64.ofNat n)))
  | .float text => .ok (.scalar (.flt (fo.strtod text)))
  | .null => .ok (.scalar .null)
  | .tru => .ok (.scalar (.bool true))
  | .fals => .ok (.scalar (.bool false))
  | .key s => .ok (.scalar (.str s))
  | .str s =>
    if s.take 5 = blobTag then do                           -- 71-81
      let b ← B64.decode (s.drop 5)
      return .scalar (.blob [b])
    else .ok (.scalar (.str s))

/-- Effect of one callback on `depth` (src/JSONParser.cc 34-49). -/
def depthDelta : JEv → Int
  | .arrBegin => 1
  | .objBegin => 1
  | .arrEnd => -1
  | .objEnd => -1
  | _ => 0

/-- The state of `JSONParserImpl` (src/JSONParser.h). -/
structure JP where
  tok : Tok
  status : Status
  depth : Int
  line : Nat
  column : Nat
  charcount : Nat
  build : BState
  log : List JEv            -- ghost: the callbacks made so far, in order
  deriving Repr

/-- `JSONParserImpl::JSONParserImpl` (src/JSONParser.cc 96-106) with the root handler pushed. -/
def JP.init : JP := ⟨Tok.init, .start, 0, 1, 0, 0, BState.init, []⟩

/-- The callbacks of one character, in order (src/JSONParser.cc 25-92).  An exception
leaves the parser in the error state and propagates. -/
def callbacks (fo : FloatOps) (s : BState) : List JEv → Out BState
  | [] => .ok s
  | e :: es => do
    let ev ← callbackEvent fo e
    let s' ← event fo.fltText s ev
    callbacks fo s' es

/-- One character of the inner loop of `Parse` (src/JSONParser.cc 145-158). -/
def feed (fo : FloatOps) (p : JP) (c : UInt8) : Out JP :=
  let p := { p with charcount := p.charcount + 1,
                    column := if c = 10 then 0 else p.column + 1,
                    line := if c = 10 then p.line + 1 else p.line }
  let after (t : Tok) (evs : List JEv) : Out JP := do
    let b ← callbacks fo p.build evs
    return { p with tok := t, build := b, log := p.log ++ evs,
                    status := if evs ≠ [] ∧ p.status = .begin then .ok else p.status,   -- 27-29
                    depth := p.depth + (evs.map depthDelta).sum }
  match charStep p.tok c with
  | .ub => .ub
  | .cont t evs => do
    let p ← after t evs
    return if p.depth = 0 ∧ p.status = .ok then                          -- 151-156
      (if isDone p.tok then
        { p with status := .end, tok := { p.tok with stack := p.tok.stack.tail } }
       else { p with status := .error })
    else p
  | .rej t evs => do
    let p ← after t evs
    return if p.status = .ok then { p with status := .error } else p     -- 157

/-- The loop condition `(status == S_OK || status == S_BEGIN) && !action_stack.empty()`. -/
def running (p : JP) : Bool := (p.status = .ok ∨ p.status = .begin) ∧ p.build.frames ≠ []

/-- The inner loop of `Parse` over one block (src/JSONParser.cc 145-159); returns the part of
the block that is not consumed (`Release(c - ptr)` gives it back to the input). -/
def parseBlock (fo : FloatOps) (p : JP) : Bytes → Out (JP × Bytes)
  | [] => .ok (p, [])
  | c :: cs =>
    if running p then do
      let p' ← feed fo p c
      parseBlock fo p' cs
    else .ok (p, c :: cs)

/-- End of input (src/JSONParser.cc 140-144). -/
def atEof (p : JP) : JP :=
  if isDone p.tok then { p with status := .end } else { p with status := .error }

/-- `Parse` (src/JSONParser.cc 134-163) on the blocks the input will return (`GetPtr`); no
block, or an empty one, is the end of input.  Returns the unconsumed blocks. -/
def parse (fo : FloatOps) (p : JP) : List Bytes → Out (JP × List Bytes)
  | [] => .ok (if running p then atEof p else p, [])
  | [] :: rest => .ok (if running p then atEof p else p, [] :: rest)
  | (c :: cs) :: rest =>
    if running p then do
      let (p', left) ← parseBlock fo p (c :: cs)
      if left = [] then parse fo p' rest else .ok (p', left :: rest)
    else .ok (p, (c :: cs) :: rest)

/-- `ParseVariant` on a new JSON parser (src/VariantParsing.cc 208-214 with
`JSONParserImpl::Run`, src/JSONParser.cc 165-201): `BeginDocument`, `Parse`, then
`EndDocument` and the result, or an exception in the error state.  Returns the value and the
unconsumed input. -/
def deserialize (fo : FloatOps) (blocks : List Bytes) : Out (Val × List Bytes) := do
  let b ← event fo.fltText BState.init .beginDoc
  let p := { JP.init with status := .begin, build := b }
  let (p, left) ← parse fo p blocks
  match p.status with
  | .error => .throw .runtime
  | .end => do
    let b ← event fo.fltText p.build .endDoc
    return (b.result, left)
  | _ => .throw .runtime     -- not reachable: `Parse` stops in one of the two states above

end Verif.JsonDrv
