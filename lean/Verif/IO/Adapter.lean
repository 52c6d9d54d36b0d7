import Verif.IO.StreamProps
/-!
# Inputs as the XML and YAML libraries read them, and files that fail

`XMLPLISTParserImpl::do_read` (src/XMLPLISTParser.cc 359-368) and `YAMLParserImpl::ParserReadHandler` (src/YAMLParser.cc 32-44) hand the
bytes of a `ParserInput` to the libraries.  `ParserFileInput::Read` (src/ParserInput.cc 121-131) reads a file; a read error is an end of the
bytes that `ferror` tells apart.
-/

namespace Verif.IO
open Verif

/-- `ParserMemoryInput` (include/Variant/ParserInput.h 60-69, src/ParserInput.cc 94-95). -/
structure MIn where
  data : Bytes
  offset : Nat
  deriving DecidableEq, Repr

/-- `GetPtr` (src/ParserInput.cc 97-107): no bytes is null. -/
def MIn.get (s : MIn) : Out Bytes := if s.offset > s.data.length then .throw .outOfRange else .ok (s.data.drop s.offset)

/-- `Release` (src/ParserInput.cc 109-111): an `unsigned` sum. -/
def MIn.release (s : MIn) (n : Nat) : MIn := { s with offset := (s.offset + n) % 2 ^ 32 }

/-- The loop of `GetPtr` (src/ParserInput.cc 66-71) on a file: `fails` if an error ends its bytes.  `Read` (121-131) throws if there is an
error and no byte was read.  `none`: it does not end; `true`: it threw. -/
def fillF (fails : Bool) (len : Nat) (s : SIn) : Option (SIn × Bool) :=
  if s.eof = false ∧ (s.num < len ∨ s.num = 0) then
    if h : s.buf.length - s.num - s.offset = 0 then none
    else if s.rest = [] ∧ fails = true then some (s, true)
    else
      let s' := readMore fullReads s
      if he : s'.eof = true then some (s', false) else fillF fails len s'
  else some (s, false)
termination_by s.buf.length - s.num - s.offset
decreasing_by exact readMore_decreases fullReads s h he

/-- `GetPtr` (src/ParserInput.cc 48-75) on a file. -/
def getPtrF (fails : Bool) (s : SIn) (len : Nat) : Option (SIn × Out Bytes) :=
  if s.eof then some (s, .ok s.view)
  else if len ≤ s.num ∧ s.num > 0 then some (s, .ok s.view)
  else match fillF fails len (makeRoom len s) with
    | none => none
    | some (s', true) => some (s', .throw .runtime)
    | some (s', false) => some (s', .ok s'.view)

/-- An input. -/
inductive Input where
  | mem (m : MIn)
  | stream (fails : Bool) (s : SIn)
  deriving DecidableEq, Repr

/-- `GetPtr`. -/
def Input.get : Input → Nat → Option (Input × Out Bytes)
  | .mem m, _ => some (.mem m, m.get)
  | .stream f s, n => (getPtrF f s n).map fun r => (.stream f r.1, r.2)

/-- `Release`; `none`: it throws. -/
def Input.release : Input → Nat → Option Input
  | .mem m, n => some (.mem (m.release n))
  | .stream f s, n => (Verif.IO.release s n).map (.stream f)

/-- `do_read` (src/XMLPLISTParser.cc 359-368) for `len` bytes; `ParserReadHandler` (src/YAMLParser.cc 32-44) is the same for sizes below
2^32.  No bytes: the end of the input. -/
def doRead (i : Input) (len : Nat) : Option (Input × Out Bytes) :=
  match i.get len with
  | none => none
  | some (i', .ok v) =>
    if v = [] then some (i', .ok [])
    else match i'.release (min len v.length) with
      | some i'' => some (i'', .ok (v.take (min len v.length)))
      | none => some (i', .throw .runtime)
  | some (i', .throw e) => some (i', .throw e)
  | some (i', .ub) => some (i', .ub)

/-- The answers to reads of these sizes. -/
def reads (i : Input) : List Nat → Option (List (Out Bytes))
  | [] => some []
  | n :: ns => match doRead i n with
    | none => none
    | some (i', r) => (reads i' ns).map (r :: ·)

/-- `GetPtr(0)` and `Release` of what came, until the end or an exception, as the JSON parser does with a document that does not end
(src/JSONParser.cc 134-163): the blocks, and whether an exception ended it. -/
def readAll (fails : Bool) : Nat → SIn → Option (List Bytes × Bool)
  | 0, _ => none
  | fuel + 1, s => match getPtrF fails s 0 with
    | none => none
    | some (s', .ok v) =>
      if v = [] then some ([], false)
      else match Verif.IO.release s' v.length with
        | none => none
        | some s'' => (readAll fails fuel s'').map fun r => (v :: r.1, r.2)
    | some (_, _) => some ([], true)

end Verif.IO
