import Verif.Json.Driver
import Verif.Json.Emit
import Verif.Event.MsgPack
import Verif.Val.Ops
import Verif.Schema.Model
/-!
# Header plus payload (src/Payload.cc)

Writing and reading a header, padding up to a NUL, and the payload bytes.  The header format is
JSON; the calls made on the emitter are modelled with their announced lengths, so that they can
also be given to the MessagePack model.
-/

namespace Verif.Payload
open Verif Verif.Event Verif.JsonEmit Verif.JsonDrv Verif.JsonTok

/-! ## The calls made for the header -/

/-- `AsUnsigned` of a path element (src/Variant.cc 899, 1044-1050).  `num` is `iss >> uintmax_t` of
the C++ library on the text of a key. -/
def elemNum (num : Bytes → Option UInt64) : PathElem → Out UInt64
  | .index i => .ok i.toUInt64
  | .key k => match num k with
    | some n => .ok n
    | none => .throw .unableToConvert

/-- `AsString` of a path element (src/Variant.cc 905, 1060). -/
def elemText : PathElem → Bytes
  | .key k => k
  | .index i => natDec i.toNat

/-- The two tests at the start of `PayloadEmit` (src/Payload.cc 30-37): at the end of the length
path the length is written, at the end of the data path a null.  A path is `none` when the flag
`on_len_path`/`on_data_path` is false, and what is left of it otherwise. -/
def early (n : UInt64) (l d : Option VPath) : Option (List Call) :=
  if l = some [] then some [.uint n] else if d = some [] then some [.null] else none

/-- The path for an element: `on ? i + 1 : i` with the new flag (src/Payload.cc 71-76, 100-108). -/
def next (on : Bool) (l : Option VPath) : Option VPath := if on then l.map List.tail else none

/-- The number of the element a path continues with (src/Payload.cc 68, 71-72). -/
def pathNum (num : Bytes → Option UInt64) : Option VPath → Out (Option UInt64)
  | some (e :: _) => do return some (← elemNum num e)
  | _ => .ok none

/-- The key a path continues with (src/Payload.cc 96-102). -/
def pathText : Option VPath → Option Bytes
  | some (e :: _) => some (elemText e)
  | _ => none

/-- Writing the length where the header does not have the rest of the length path (src/Payload.cc
83-90, 113-120). -/
def missing (n : UInt64) (l : Option VPath) : Out (List Call) :=
  match l with
  | some (_ :: q) =>
    if q ≠ [] then match setPath .null q (.uint n) with
      | (t, none) => .ok (valTree t).calls
      | (_, some e) => .throw e
    else .ok [.uint n]
  | _ => .ok []

/-- The length announced for a list (src/Payload.cc 67-68). -/
def listSize (size : Nat) : Option UInt64 → Nat
  | some i => if size ≤ i.toNat then i.toNat + 1 else size
  | none => size

/-- After the elements of a list (src/Payload.cc 78-91): the loop of lines 79-82 runs until `index`
wraps to zero. -/
def listTail (n : UInt64) (size : Nat) (li : Option UInt64) (l : Option VPath) : Out (List Call) :=
  match li with
  | some i =>
    if i.toNat < size then do
      let t ← missing n l
      .ok (List.replicate (2 ^ 32 - size) .null ++ t)
    else .ok []
  | none => .ok []

/-- `Contains` of the key a path continues with (src/Payload.cc 96-97). -/
def hasNext (m : List (Bytes × Val)) (l : Option VPath) : Bool :=
  match pathText l with
  | some k => (AMap.get m k).isSome
  | none => false

/-- The length announced for a map (src/Payload.cc 95-97). -/
def mapSize (m : List (Bytes × Val)) (l d : Option VPath) : Nat :=
  m.length + (if (pathText l).isSome ∧ ¬ hasNext m l then 1 else 0) - (if hasNext m d then 1 else 0)

/-- After the members of a map (src/Payload.cc 111-121). -/
def mapTail (n : UInt64) (m : List (Bytes × Val)) (l : Option VPath) : Out (List Call) :=
  match pathText l with
  | some k =>
    if hasNext m l then .ok []
    else do
      let t ← missing n l
      .ok (.str k :: t)
  | none => .ok []

/-- `PayloadEmit` (src/Payload.cc 22-130); the loops are `listCalls` (70-77) and `mapCalls`
(99-110).  Lists are shorter than 2^32 (`unsigned index`). -/
def payloadCalls (num : Bytes → Option UInt64) (n : UInt64) : Val → Option VPath → Option VPath → Out (List Call)
  | .null, l, d => .ok ((early n l d).getD [.null])
  | .bool b, l, d => .ok ((early n l d).getD [.bool b])
  | .int i, l, d => .ok ((early n l d).getD [.int i])
  | .uint u, l, d => .ok ((early n l d).getD [.uint u])
  | .flt b, l, d => .ok ((early n l d).getD [.flt b])
  | .str s, l, d => .ok ((early n l d).getD [.str s])
  | .blob s, l, d => .ok ((early n l d).getD [.blob s])
  | .list xs, l, d => match early n l d with
    | some c => .ok c
    | none => do
      let li ← pathNum num l
      let body ← listCalls num n 0 xs li l d
      let tail ← listTail n xs.length li l
      .ok (.beginList (toInt32 (listSize xs.length li)) :: (body ++ tail ++ [.endList]))
  | .map m, l, d => match early n l d with
    | some c => .ok c
    | none => do
      let body ← mapCalls num n m l d
      let tail ← mapTail n m l
      .ok (.beginMap (toInt32 (mapSize m l d)) :: (body ++ tail ++ [.endMap]))
where
  listCalls (num : Bytes → Option UInt64) (n : UInt64) (i : Nat) :
      List Val → Option UInt64 → Option VPath → Option VPath → Out (List Call)
    | [], _, _, _ => .ok []
    | x :: r, li, l, d => do
      let di ← pathNum num d
      let a ← payloadCalls num n x (next (li.map UInt64.toNat = some i) l) (next (di.map UInt64.toNat = some i) d)
      let b ← listCalls num n (i + 1) r li l d
      .ok (a ++ b)
  mapCalls (num : Bytes → Option UInt64) (n : UInt64) :
      List (Bytes × Val) → Option VPath → Option VPath → Out (List Call)
    | [], _, _ => .ok []
    | x :: r, l, d => do
      let onL := pathText l = some x.1
      let onD := pathText d = some x.1
      if onD ∧ d.map List.tail = some [] then mapCalls num n r l d                      -- 103
      else do
        let a ← payloadCalls num n x.2 (next onL l) (next onD d)
        let b ← mapCalls num n r l d
        .ok (.str x.1 :: (a ++ b))

/-- The JSON emitter ignores announced lengths and the document calls (src/JSONEmitter.cc 58-90). -/
def jsonOps : Call → List JsonEmit.Op
  | .beginDoc => []
  | .endDoc => []
  | .beginMap _ => [.beginMap]
  | .endMap => [.endMap]
  | .beginList _ => [.beginList]
  | .endList => [.endList]
  | .null => [.null]
  | .bool b => [if b then .tru else .fals]
  | .str s => [.str s]
  | .int i => [.int i]
  | .uint u => [.uint u]
  | .flt b => [.flt b]
  | .blob s => [.blob s]

/-! ## Writing -/

/-- `PADDING_MOD - (NumBytesWritten() + 1) % PADDING_MOD` (src/Payload.cc 174) with `unsigned`
byte counts. -/
def padLen (written : Nat) : Nat := 32 - (written + 1) % 2 ^ 32 % 32

/-- The loop writing the padding (src/Payload.cc 175-180): it ends when `num` bytes are written,
although there are `num + 1`. -/
def writePad (w : Nat → Nat) (num : Nat) (m : Mach) (written : Nat) : Mach :=
  if written < num then
    let k := accept w m.calls (num + 1 - written)
    writePad w num
      { m with out := m.out ++ ((List.replicate num (10 : UInt8) ++ [0]).drop written).take k, calls := m.calls + 1 } (written + k)
  else m
termination_by num - written
decreasing_by simp [accept]; omega

/-- The loop writing the payload (src/Payload.cc 183-192). -/
def writeSlabs (w : Nat → Nat) (m : Mach) : List Bytes → Mach
  | [] => m
  | s :: r => writeSlabs w (writeAll w s.length m s) r

/-- Parameters of `SerializeWithPayload` (src/Payload.cc 140-147, 158): the two paths,
`ignore_payload` and `payload_length`. -/
structure Opts where
  dataPath : VPath
  lengthPath : VPath
  ignorePayload : Bool := false
  payloadLength : Option UInt64 := none

/-- `AsUnsigned` (src/Variant.cc 269, 597, 712, 840, 899, 960, 1044). -/
def asUnsigned (num : Bytes → Option UInt64) : Val → Out UInt64
  | .null => .ok 0
  | .bool b => .ok (if b then 1 else 0)
  | .str s => match num s with
    | some n => .ok n
    | none => .throw .unableToConvert
  | v => Schema.asUnsignedNum v

/-- `AsBlob` (src/Variant.cc 278, 1394). -/
def asBlob : Val → Out (List Bytes)
  | .blob s => .ok s
  | _ => .throw .unexpectedType

/-- The payload (src/Payload.cc 151-154). -/
def findPayload (v : Val) (o : Opts) : Out (List Bytes) :=
  if hasPath v o.dataPath then getPath v o.dataPath >>= asBlob else .ok []

/-- The length written (src/Payload.cc 149, 155-158). -/
def findLength (num : Bytes → Option UInt64) (v : Val) (o : Opts) (blob : List Bytes) : Out UInt64 :=
  (fun n => o.payloadLength.getD n) <$>
    (if hasPath v o.dataPath then .ok (UInt64.ofNat (Blob.totalLength (blob.map (·.length))))
     else if o.ignorePayload then asUnsigned num (getPathDef v o.lengthPath (.int 0))
     else .ok 0)

/-- `SerializeWithPayload` to JSON (src/Payload.cc 132-195), on an output in state `m` (nothing
buffered) that takes blocks as `w` says. -/
def serializeTo (num : Bytes → Option UInt64) (ff : FloatFmt) (c : Cfg) (w : Nat → Nat) (o : Opts) (m : Mach) (v : Val) :
    Out Mach :=
  if v.ty ≠ .map then .throw .runtime
  else do
    let blob ← findPayload v o
    let n ← findLength num v o blob
    let calls ← payloadCalls num n v (some o.lengthPath) (some o.dataPath)
    let (cs, _) ← emitOps ff c [] (calls.flatMap jsonOps)
    let m ← exec w m cs
    let m := flush w m
    let m := writePad w (padLen m.out.length) m 0
    .ok (if hasPath v o.dataPath ∧ ¬ o.ignorePayload then writeSlabs w m blob else m)

/-! ## Reading -/

/-- An input with `rem` still to come.  `GetPtr(len)` shows at least `len` bytes, at least one, or
all there are, and perhaps more: `g` says how many for each call.  This is what memory, file and
stream inputs do (src/ParserInput.cc 41-99; property C28). -/
structure Input where
  rem : Bytes
  calls : Nat

def getPtr (g : Nat → Nat) (s : Input) (len : Nat) : Input × Bytes :=
  ({ s with calls := s.calls + 1 }, s.rem.take (max (max len 1) (g s.calls)))

def release (s : Input) (len : Nat) : Input := { s with rem := s.rem.drop len }

/-- `ProxyInput::GetPtr` (src/Payload.cc 214-225): everything up to a NUL.  Reading at `scanned` is
outside the block when that is its length. -/
def proxyGet (g : Nat → Nat) (s : Input) (scanned : Nat) (len : Nat) : Out (Input × Nat × Bytes) :=
  let (s', view) := getPtr g s len
  match view with
  | [] => .ok (s', scanned, [])
  | _ => match view[scanned]? with
    | none => .ub
    | some c =>
      let scanned' := if c ≠ 0 then scanned + ((view.drop scanned).takeWhile (· ≠ 0)).length else scanned
      .ok (s', scanned', view.take scanned')

/-- `JSONParserImpl::Parse` (src/JSONParser.cc 134-163) reading from a `ProxyInput`;
`ProxyInput::Release` is src/Payload.cc 227-230.  A running parser consumes at least one byte of a
block, so the last branch is never taken. -/
def parseProxy (fo : FloatOps) (g : Nat → Nat) (p : JP) (s : Input) (scanned : Nat) : Out (JP × Input) :=
  if running p then
    match proxyGet g s scanned 0 with
    | .ub => .ub
    | .throw e => .throw e
    | .ok (s', scanned', view) =>
      if view = [] then .ok (atEof p, s')
      else match parseBlock fo p view with
        | .ub => .ub
        | .throw e => .throw e
        | .ok (p', left) =>
          let k := view.length - left.length
          if (s'.rem.drop k).length < s.rem.length then parseProxy fo g p' (release s' k) (scanned' - k)
          else .ok (p', s')
  else .ok (p, s)
termination_by s.rem.length
decreasing_by simp only [release]; assumption

/-- `ParseVariant` on a JSON parser over a `ProxyInput` (src/Payload.cc 244-246, as
`JsonDrv.deserialize`). -/
def parseHeader (fo : FloatOps) (g : Nat → Nat) (s : Input) : Out (Val × Input) := do
  let b ← Build.event fo.fltText .init .beginDoc
  let (p, s) ← parseProxy fo g { JP.init with status := .begin, build := b } s 0
  match p.status with
  | .error => .throw .runtime
  | .end => do
    let b ← Build.event fo.fltText p.build .endDoc
    return (b.result, s)
  | _ => .throw .runtime

/-- The loop up to and including a NUL (src/Payload.cc 249-262). -/
def skipNul (g : Nat → Nat) (s : Input) : Input :=
  match h : (getPtr g s 1).2 with
  | [] => (getPtr g s 1).1
  | c :: r =>
    if 0 ∈ c :: r then release (getPtr g s 1).1 (((c :: r).takeWhile (· ≠ 0)).length + 1)
    else skipNul g (release (getPtr g s 1).1 (c :: r).length)
termination_by s.rem.length
decreasing_by
  have := congrArg List.length h
  simp only [release, getPtr, List.length_drop, List.length_take, List.length_cons] at *
  omega

/-- `DeserializeWithPayload` from JSON (src/Payload.cc 232-286).  The payload is copied
(`be_safe`); without that option it refers to the same bytes in the caller's memory. -/
def deserializeFrom (num : Bytes → Option UInt64) (fo : FloatOps) (g : Nat → Nat) (o : Opts) (s : Input) :
    Out (Val × Input) := do
  let (ret, s) ← parseHeader fo g s
  let s := skipNul g s
  let n ← asUnsigned num (getPathDef ret o.lengthPath (.uint 0))
  if n.toNat > 0 then do
    let (s, view) := getPtr g s (n.toNat % 2 ^ 32)                                      -- 270-271
    if view.length < n.toNat then .throw .runtime
    else match setPath ret o.dataPath (.blob [view.take (n.toNat % 2 ^ 32)]) with       -- 278-283
      | (ret, none) => .ok (ret, release s (n.toNat % 2 ^ 32))
      | (_, some e) => .throw e
  else .ok (ret, s)

end Verif.Payload
