import Verif.Guess.Model
import Verif.Build.Model
import Verif.Base64.Model
import Verif.Event.MsgPack
/-!
# XML property lists (src/XMLPLISTParser.cc, src/XMLPLISTEmitter.cc)

The XML itself is read and written by libxml2, which is not part of the repository.  The parser is modelled on the
sequence of nodes `xmlTextReaderRead` delivers, the emitter on the sequence of calls it makes to the text writer.
-/

namespace Verif.Xml
open Verif Verif.JsonDrv
open Verif.Event (Call cstr)
open Verif.Build (PEv BState)

/-! ## Names -/

/-- src/XMLPLISTDefs.h 25-35 -/
def nMap : Bytes := [100, 105, 99, 116]
def nString : Bytes := [115, 116, 114, 105, 110, 103]
def nTrue : Bytes := [116, 114, 117, 101]
def nFalse : Bytes := [102, 97, 108, 115, 101]
def nInteger : Bytes := [105, 110, 116, 101, 103, 101, 114]
def nFloat : Bytes := [114, 101, 97, 108]
def nRoot : Bytes := [112, 108, 105, 115, 116]
def nList : Bytes := [97, 114, 114, 97, 121]
def nNull : Bytes := [110, 117, 108, 108]
def nKey : Bytes := [107, 101, 121]
def nBlob : Bytes := [100, 97, 116, 97]

/-- `State_t` (src/XMLPLISTParser.h 34-50). -/
inductive St where
  | start | null | root | «true» | «false» | integer | float | string | blob | map | emptyMap | key | list | emptyList | «end»
  deriving DecidableEq, Repr

/-- `tolower` in the C locale. -/
def lower (c : UInt8) : UInt8 := if 65 ≤ c ∧ c ≤ 90 then c + 32 else c

/-- `strcasecmp(name, s) == 0` for a `s` in lower case. -/
def same (name s : Bytes) : Bool := name.map lower == s

/-- `StringToNode` (src/XMLPLISTParser.cc 32-60). -/
def nodeOf (name : Bytes) : St :=
  if same name nString then .string
  else if same name nTrue then .true
  else if same name nRoot then .root
  else if same name nList then .list
  else if same name nFalse then .false
  else if same name nInteger then .integer
  else if same name nFloat then .float
  else if same name nNull then .null
  else if same name nMap then .map
  else if same name nKey then .key
  else if same name nBlob then .blob
  else .string

/-! ## The parser -/

/-- What `xmlTextReaderRead` delivers: an element (written `<x/>` or not), the end of an element, a text, any other
node (blank text, comments, declarations, ...), or an error. -/
inductive RNode where
  | elem (name : Bytes) (isEmpty : Bool)
  | endElem (name : Bytes)
  | text (s : Bytes)
  | other
  | error
  deriving DecidableEq, Repr

/-- The digits at the beginning and their value, in a base given by `digit`. -/
def digitsVal (base : Nat) (digit : UInt8 → Option Nat) (acc : Nat) : Bytes → Nat
  | [] => acc
  | c :: r =>
    match digit c with
    | some d => digitsVal base digit (acc * base + d) r
    | none => acc

/-- Decimal and octal digits. -/
def decDigit (c : UInt8) : Option Nat := if isDigit c then some (c.toNat - 48) else none
def octDigit (c : UInt8) : Option Nat := if Guess.isOct c then some (c.toNat - 48) else none

/-- The magnitude `strtoll(_, 0, 0)` reads behind blanks and sign: `0x` begins a hexadecimal number if a hexadecimal
digit follows, `0` an octal one, anything else a decimal one; nothing that can be read is 0. -/
def magnitude (s : Bytes) : Nat :=
  match s with
  | 48 :: c :: d :: r =>
    if (c = 120 ∨ c = 88) ∧ (Guess.hexVal d).isSome then digitsVal 16 Guess.hexVal 0 (d :: r)
    else digitsVal 8 octDigit 0 (c :: d :: r)
  | 48 :: r => digitsVal 8 octDigit 0 r
  | s => digitsVal 10 decDigit 0 s

/-- The integer read from a text (src/XMLPLISTParser.cc 233-247).  `errno` is not reset before: `stale` tells whether
it was `ERANGE` already. -/
def readInt (stale : Bool) (s : Bytes) : Val :=
  let sg := Ext.sign (s.dropWhile isSpace)
  let n := magnitude sg.2
  let v := Guess.strtoll sg.1 n
  let range := stale || (if sg.1 then n > 2 ^ 63 else n ≥ 2 ^ 63)
  if v = 2 ^ 63 - 1 ∧ range then .uint (UInt64.ofNat (Ext.signed64 sg.1 n)) else .int (Int64.ofInt v)

/-- The blob read from a text (src/XMLPLISTParser.cc 263-277): the buffer has `Base64DecodeSize` bytes. -/
def readBlob (s : Bytes) : Out Val := do
  let d ← B64.decode s
  if d.length ≤ (B64.decodeSize (UInt32.ofNat s.length)).toNat then return .blob [d] else .ub

/-- What a node comes to: whether the inner loop of `Run` goes on, the state stack (top first), `empty`, and the
handlers. -/
structure After where
  loop : Bool
  stack : List St
  empty : Bool
  b : BState

/-- `BeginElement` (src/XMLPLISTParser.cc 137-222). -/
def beginElement (ft : UInt64 → Bytes) (st : List St) (empty : Bool) (b : BState) (n : St) (isEmpty : Bool) : Out After :=
  let scalar (v : Val) : Out After := do
    let b ← Build.event ft b (.scalar v)
    return ⟨!isEmpty, if isEmpty then st else n :: st, empty, b⟩
  let content : Out After := if isEmpty then .throw .runtime else .ok ⟨true, n :: st, true, b⟩
  match n with
  | .null => scalar .null
  | .root => do
    let b ← Build.event ft b .beginDoc
    return ⟨!isEmpty, n :: st, empty, b⟩
  | .true => scalar (.bool true)
  | .false => scalar (.bool false)
  | .integer => content
  | .float => content
  | .string => content
  | .blob => content
  | .map => do
    let b ← Build.event ft b .beginMap
    return ⟨false, (if isEmpty then .emptyMap else .map) :: st, empty, b⟩
  | .key => content
  | .list => do
    let b ← Build.event ft b .beginList
    return ⟨false, (if isEmpty then .emptyList else .list) :: st, empty, b⟩
  | _ => .throw .runtime

/-- `ProcessText` (src/XMLPLISTParser.cc 224-291). -/
def processText (fo : FloatOps) (stale : Bool) (st : List St) (empty : Bool) (b : BState) (s : Bytes) : Out After :=
  let value (v : Val) : Out After := do
    let b ← Build.event fo.fltText b (.scalar v)
    return ⟨true, st, false, b⟩
  match st with
  | [] => .ub
  | .null :: _ => .ok ⟨true, st, empty, b⟩
  | .root :: _ => .ok ⟨true, st, empty, b⟩
  | .true :: _ => .ok ⟨true, st, empty, b⟩
  | .false :: _ => .ok ⟨true, st, empty, b⟩
  | .map :: _ => .ok ⟨true, st, empty, b⟩
  | .list :: _ => .ok ⟨true, st, empty, b⟩
  | .integer :: _ => value (readInt stale s)
  | .float :: _ => value (.flt (fo.strtod s))
  | .string :: _ => value (.str s)
  | .blob :: _ => do
    let v ← readBlob s
    value v
  | .key :: _ => value (.str s)
  | _ :: _ => .throw .runtime

/-- `EndElement` (src/XMLPLISTParser.cc 293-338). -/
def endElement (ft : UInt64 → Bytes) (st : List St) (empty : Bool) (b : BState) (n : St) : Out After :=
  match st with
  | [] => .ub
  | t :: st =>
    if t ≠ n then .throw .runtime
    else
      let done (b : BState) : Out After := .ok ⟨false, st, empty, b⟩
      match n with
      | .null => done b
      | .true => done b
      | .false => done b
      | .integer => if empty then .throw .runtime else done b
      | .float => if empty then .throw .runtime else done b
      | .blob => if empty then .throw .runtime else done b
      | .string => if empty then do done (← Build.event ft b (.scalar (.str []))) else done b
      | .key => if empty then do done (← Build.event ft b (.scalar (.str []))) else done b
      | .root => do done (← Build.event ft b .endDoc)
      | .map => do done (← Build.event ft b .endMap)
      | .list => do done (← Build.event ft b .endList)
      | _ => .throw .runtime

/-- One node in the inner loop of `Run` (src/XMLPLISTParser.cc 89-121); `TopAction` throws if there is no handler. -/
def node (fo : FloatOps) (stale : Bool) (st : List St) (empty : Bool) (b : BState) (n : RNode) : Out After :=
  match n with
  | .other => .ok ⟨true, st, empty, b⟩
  | .error => .throw .runtime
  | .elem name isEmpty => if b.frames = [] then .throw .runtime else beginElement fo.fltText st empty b (nodeOf name) isEmpty
  | .endElem name => if b.frames = [] then .throw .runtime else endElement fo.fltText st empty b (nodeOf name)
  | .text s => if b.frames = [] then .throw .runtime else processText fo stale st empty b s

/-- What the beginning of the outer loop of `Run` comes to: reading stops, or goes on with a state stack and handlers. -/
inductive Entry where
  | stop (v : Val)
  | go (st : List St) (b : BState)

/-- The beginning of the outer loop (src/XMLPLISTParser.cc 62-88), together with the loop in `ParseVariant`
(src/VariantParsing.cc 212), which calls `Run` again after the empty containers.  Without handlers the bottom one is
done, and `ParseVariant` returns. -/
def enter (ft : UInt64 → Bytes) : List St → BState → Out Entry
  | [], b => if b.frames = [] then .ok (.stop b.result) else .ub
  | t :: st, b =>
    if b.frames = [] then .ok (.stop b.result)
    else
      match t with
      | .start => .ok (.go (.end :: st) b)
      | .end => .ok (.stop b.result)
      | .emptyMap => do enter ft st (← Build.event ft b .endMap)
      | .emptyList => do enter ft st (← Build.event ft b .endList)
      | .root => .ok (.go (t :: st) b)
      | .map => .ok (.go (t :: st) b)
      | .list => .ok (.go (t :: st) b)
      | _ => .throw .runtime

/-- The nodes one after the other (src/XMLPLISTParser.cc 62-135).  At the end of the document (`ret == 0`) the state
must be `EndState`. -/
def run (fo : FloatOps) (stale : Nat → Bool) (st : List St) (empty : Bool) (b : BState) : List RNode → Out Val
  | [] =>
    match st with
    | .end :: _ => .ok b.result
    | [] => .ub
    | _ => .throw .runtime
  | n :: ns => do
    let a ← node fo (stale 0) st empty b n
    if a.loop then run fo (fun k => stale (k + 1)) a.stack a.empty a.b ns
    else
      match ← enter fo.fltText a.stack a.b with
      | .stop v => .ok v
      | .go st b => run fo (fun k => stale (k + 1)) st a.empty b ns

/-- `ParseVariant` with an XML property list parser (src/VariantParsing.cc 208-214). -/
def deserialize (fo : FloatOps) (stale : Nat → Bool) (ns : List RNode) : Out Val := do
  match ← enter fo.fltText [.start] BState.init with
  | .stop v => return v
  | .go st b => run fo stale st true b ns

/-! ## The emitter -/

/-- A call of libxml2's text writer. -/
inductive WCall where
  | start (name : Bytes) | text (s : Bytes) | close
  deriving DecidableEq, Repr

/-- `State` (src/XMLPLISTEmitter.h 40-45). -/
inductive ES where
  | none | key | value | list
  deriving DecidableEq, Repr

/-- The states (top first) and the number of open elements, which the library keeps. -/
structure Em where
  state : List ES
  depth : Nat
  deriving DecidableEq, Repr

/-- After the constructor (src/XMLPLISTEmitter.cc 43-70). -/
def Em.init : Em := ⟨[.none], 0⟩

/-- `StartElement` with `CheckMapKey` (src/XMLPLISTEmitter.h 90-107). -/
def startElement (e : Em) (name : Bytes) (complex : Bool) : Out (Em × List WCall) :=
  match e.state with
  | [] => .ub
  | .value :: r => .ok (⟨.key :: r, e.depth + 1⟩, [.start name])
  | .key :: r => if complex then .throw .runtime else .ok (⟨.value :: r, e.depth + 1⟩, [.start name])
  | s => .ok (⟨s, e.depth + 1⟩, [.start name])

/-- `CloseElement` (src/XMLPLISTEmitter.h 109-114): the library refuses if nothing is open. -/
def closeElement (e : Em) : Out (Em × List WCall) :=
  if e.depth = 0 then .throw .runtime else .ok (⟨e.state, e.depth - 1⟩, [.close])

/-- An element with a text (src/XMLPLISTEmitter.cc 110-167). -/
def leaf (e : Em) (name : Bytes) (complex : Bool) (ts : List Bytes) : Out (Em × List WCall) := do
  let (e, a) ← startElement e name complex
  let (e, c) ← closeElement e
  return (e, a ++ ts.map .text ++ c)

/-- An integer printed by `oss <<`. -/
def intText (i : Int) : Bytes := if i < 0 then 45 :: natDec i.natAbs else natDec i.natAbs

/-- The text of a blob (src/XMLPLISTEmitter.cc 161-167), 72 characters in a line; the buffer has `Base64EncodeSize`
bytes. -/
def blobText (segs : List Bytes) : Out Bytes := do
  let t ← B64.encode segs 72
  if t.length + 1 ≤ (B64.encodeSize (UInt32.ofNat segs.flatten.length) 72).toNat then return t else .ub

/-- A call of the emitter (src/XMLPLISTEmitter.cc 82-167).  `ff`: the text of a double (`setprecision`, `showpoint`). -/
def emit (ff : UInt64 → Bytes) (e : Em) : Call → Out (Em × List WCall)
  | .beginDoc => startElement e nRoot true
  | .endDoc => closeElement e
  | .beginMap _ => do
    let (e, o) ← startElement e nMap true
    return (⟨.key :: e.state, e.depth⟩, o)
  | .endMap => do
    let (e, o) ← closeElement e
    match e.state with
    | [] => .ub
    | _ :: s => return (⟨s, e.depth⟩, o)
  | .beginList _ => do
    let (e, o) ← startElement e nList true
    return (⟨.list :: e.state, e.depth⟩, o)
  | .endList => do
    let (e, o) ← closeElement e
    match e.state with
    | [] => .ub
    | _ :: s => return (⟨s, e.depth⟩, o)
  | .null => leaf e nNull true []
  | .bool true => leaf e nTrue true []
  | .bool false => leaf e nFalse true []
  | .str s =>
    match e.state with
    | [] => .ub
    | .key :: _ => leaf e nKey false [cstr s]
    | _ :: _ => leaf e nString true [cstr s]
  | .int i => leaf e nInteger true [intText i.toInt]
  | .uint u => leaf e nInteger true [natDec u.toNat]
  | .flt d => leaf e nFloat true [ff d]
  | .blob segs => do
    let t ← blobText segs
    leaf e nBlob true [t]

/-- A sequence of calls: the state and all the calls of the writer. -/
def emits (ff : UInt64 → Bytes) : Em → List Call → Out (Em × List WCall)
  | e, [] => .ok (e, [])
  | e, c :: cs => do
    let (e, o) ← emit ff e c
    let (e, o') ← emits ff e cs
    return (e, o ++ o')

/-- `Serialize` (src/VariantEmitting.cc 68-73, 89-95): no document is begun, so there is no `plist` element.  (`Close`
ends the document: everything is closed already.) -/
def serialize (ff : UInt64 → Bytes) (v : Val) : Out (List WCall) := do
  let (_, o) ← emits ff Em.init (Event.valTree v).calls
  return o

/-- A value written between `BeginDocument` and `EndDocument`. -/
def serializeDoc (ff : UInt64 → Bytes) (v : Val) : Out (List WCall) := do
  let (_, o) ← emits ff Em.init (.beginDoc :: (Event.valTree v).calls ++ [.endDoc])
  return o

/-! ## libxml2 -/

/-- A byte of UTF-8 behind the first. -/
def cont (c : UInt8) : Bool := 128 ≤ c && c ≤ 191

/-- The characters XML allows, in UTF-8 (XML 1.0, production 2). -/
def xmlChars : Bytes → Bool
  | [] => true
  | a :: r =>
    if a < 128 then (a ≥ 32 || a == 9 || a == 10 || a == 13) && xmlChars r
    else if a < 194 then false
    else if a < 224 then
      match r with
      | b :: r => cont b && xmlChars r
      | [] => false
    else if a < 240 then
      match r with
      | b :: c :: r =>
        cont b && cont c && (a != 224 || b ≥ 160) && (a != 237 || b < 160) && !(a == 239 && b == 191 && c ≥ 190) && xmlChars r
      | _ => false
    else if a < 245 then
      match r with
      | b :: c :: d :: r => cont b && cont c && cont d && (a != 240 || b ≥ 144) && (a != 244 || b < 144) && xmlChars r
      | _ => false
    else false

/-- A blank of XML (production 3). -/
def xmlBlank (c : UInt8) : Bool := c == 32 || c == 9 || c == 10 || c == 13

/-- The nodes for a text: none for no text, a blank text is not a text node (`xmlTextReaderNodeType`), characters that
XML does not allow are written, but are an error for the reader. -/
def textNodes (s : Bytes) : List RNode :=
  if s = [] then [] else if xmlChars s = false then [.error] else if s.all xmlBlank then [.other] else [.text s]

/-- The nodes libxml2 reads for what it was told to write, without indentation: an element closed at once is written
`<x/>`.  The first argument is the names of the open elements.  (The emitter never writes two texts in a row.) -/
def nodesOf : List Bytes → List WCall → List RNode
  | st, [] => st.map .endElem
  | st, .start n :: .close :: r => .elem n true :: nodesOf st r
  | st, .start n :: r => .elem n false :: nodesOf (n :: st) r
  | n :: st, .close :: r => .endElem n :: nodesOf st r
  | [], .close :: r => nodesOf [] r
  | st, .text s :: r => textNodes s ++ nodesOf st r

end Verif.Xml
