import Verif.Guess.Model
import Verif.Build.Model
import Verif.Base64.Model
import Verif.Event.MsgPack
/-!
# YAML (src/YAMLParser.cc, src/YAMLEmitter.cc, the anchors of src/VariantParsing.cc)

The text itself is read and written by libyaml, which is not part of the repository.  The parser is modelled on the
events `yaml_parser_parse` delivers, the emitter on the events it gives to `yaml_emitter_emit`.
-/

namespace Verif.Yaml
open Verif Verif.JsonDrv
open Verif.Event (Call cstr)
open Verif.Build (asString)

/-! ## Handlers with anchors -/

/-- The handlers of `Build.Frame`, now with the `anchor` a container was begun with, `[]` if none
(src/VariantParsing.cc 143, 172-177, 201-206).  The anchor of the bottom handler is never used: it has no `base`. -/
inductive Frame where
  | root (result : Val) (seen : Bool)
  | map (m : List (Bytes × Val)) (key : Option Bytes) (anchor : Bytes)
  | list (xs : List Val) (anchor : Bytes)
  deriving Repr

/-- The `result` and the `anchor` of a handler. -/
def Frame.result : Frame → Val
  | .root v _ => v
  | .map m _ _ => .map m
  | .list xs _ => .list xs

def Frame.anchor : Frame → Bytes
  | .root _ _ => []
  | .map _ _ a => a
  | .list _ a => a

/-- The action stack of one `ParseVariant` (top first) and its `ParserState` (src/VariantParsing.cc 43-61): the anchors
known so far and the result. -/
structure B where
  frames : List Frame
  anchors : List (Bytes × Val)
  result : Val
  deriving Repr

/-- `ParseVariant` up to the loop (src/VariantParsing.cc 209-211). -/
def B.init : B := ⟨[.root .null false], [], .null⟩

/-- The virtual functions of `ParserActions` with anchors. -/
inductive AEv where
  | beginDoc | endDoc
  | beginMap (anchor : Bytes) | endMap
  | beginList (anchor : Bytes) | endList
  | alias (name : Bytes)
  | scalar (anchor : Bytes) (v : Val)
  deriving Repr

/-- `ParserState::Anchor(anchor, v)` (src/VariantParsing.cc 50-52): `std::map::insert` does not replace.  `[]` stands
for the null pointer: an anchor has at least one character. -/
def addAnchor (as : List (Bytes × Val)) (a : Bytes) (v : Val) : List (Bytes × Val) :=
  if a = [] then as else if (as.lookup a).isSome then as else as ++ [(a, v)]

/-- `SetValue` of the three handlers (src/VariantParsing.cc 114-121, 160-170, 194-197): the updated handler, the anchors
and whether it calls `Finish`.  A map handler does not keep the anchor of a key. -/
def setVal (ft : UInt64 → Bytes) (as : List (Bytes × Val)) (f : Frame) (v : Val) (a : Bytes) :
    Out (Frame × List (Bytes × Val) × Bool) :=
  match f with
  | .root _ seen => .ok (.root v seen, addAnchor as a v, !seen)
  | .map m none n => do
    let k ← asString ft v
    return (.map m (some k) n, as, false)
  | .map m (some k) n => .ok (.map (AMap.set m k v) none n, addAnchor as a v, false)
  | .list xs n => .ok (.list (xs ++ [v]) n, addAnchor as a v, false)

/-- `SetValue` on the top handler, with the `Finish` of a bottom handler (src/VariantParsing.cc 123-131). -/
def setTop (ft : UInt64 → Bytes) (s : B) (v : Val) (a : Bytes) : Out B :=
  match s.frames with
  | [] => .throw .runtime
  | f :: rest => do
    let (f', as, fin) ← setVal ft s.anchors f v a
    return if fin then ⟨rest, as, v⟩ else ⟨f' :: rest, as, s.result⟩

/-- `Finish` of the top handler (src/VariantParsing.cc 123-131). -/
def finish (ft : UInt64 → Bytes) (s : B) : Out B :=
  match s.frames with
  | [] => .throw .runtime
  | [f] => .ok ⟨[], s.anchors, f.result⟩
  | f :: rest => setTop ft { s with frames := rest } f.result f.anchor

/-- One event on the top handler (src/VariantParsing.cc 69-112, 154-157, 172-177, 189-192, 201-206). -/
def event (ft : UInt64 → Bytes) (s : B) (e : AEv) : Out B :=
  match s.frames with
  | [] => .throw .runtime
  | f :: rest =>
    match e with
    | .beginDoc =>
      match f with
      | .root v _ => .ok { s with frames := .root v true :: rest }
      | _ => .ok s
    | .endDoc => finish ft s
    | .beginMap a => .ok { s with frames := .map [] none a :: s.frames }
    | .beginList a => .ok { s with frames := .list [] a :: s.frames }
    | .endMap =>
      match f with
      | .map _ _ _ => finish ft s
      | _ => .throw .runtime
    | .endList =>
      match f with
      | .list _ _ => finish ft s
      | _ => .throw .runtime
    | .alias n =>
      match s.anchors.lookup n with
      | none => .throw .outOfRange
      | some v => setTop ft s v []
    | .scalar a v => setTop ft s v a

/-! ## The parser -/

/-- `yaml_scalar_style_t` of libyaml. -/
inductive Style where
  | any | plain | single | double | literal | folded
  deriving DecidableEq, Repr

/-- `yaml_event_t` of libyaml, with the parts the parser uses (anchors: `[]` if there is none; the tags of sequences
and mappings are handed on, but no handler uses them). -/
inductive YEv where
  | noEvent
  | streamStart | streamEnd
  | docStart | docEnd
  | alias (name : Bytes)
  | scalar (anchor : Bytes) (tag : Option Bytes) (style : Style) (value : Bytes)
  | seqStart (anchor : Bytes) | seqEnd
  | mapStart (anchor : Bytes) | mapEnd
  deriving DecidableEq, Repr

/-- "tag:yaml.org,2002:binary" (src/YAMLParser.cc 62) -/
def binaryTag : Bytes := [116, 97, 103, 58, 121, 97, 109, 108, 46, 111, 114, 103, 44, 50, 48, 48, 50, 58, 98, 105, 110, 97, 114, 121]

/-- `ParseScalar` (src/YAMLParser.cc 56-90).  `stale`: whether `errno` was `ERANGE` already. -/
def parseScalar (fo : FloatOps) (stale : Bool) (tag : Option Bytes) (style : Style) (value : Bytes) : Out Val :=
  if tag = some binaryTag then do
    let d ← B64.decode value
    if d.length ≤ (B64.decodeSize (UInt32.ofNat value.length)).toNat then return .blob [d] else .ub
  else
    match style with
    | .single => .ok (.str value)
    | .double => .ok (.str value)
    | .literal => .ok (.str value)
    | .folded => .ok (.str value)
    | _ => .ok (if tag.isSome then .str value else Guess.guess fo stale value)

/-- libyaml's side of the parser: the events it has still to deliver (when they are used up without a stream end, the
next call fails), and whether it has failed. -/
structure Rd where
  evs : List YEv
  failed : Bool
  deriving DecidableEq, Repr

/-- `yaml_parser_parse`: `none` if it returns 0.  After an error it returns 1 with no event. -/
def parse (r : Rd) : Rd × Option YEv :=
  if r.failed then (r, some .noEvent)
  else
    match r.evs with
    | [] => (⟨[], true⟩, none)
    | e :: es => (⟨es, false⟩, some e)

/-- What an event comes to in `Run` (src/YAMLParser.cc 107-156): the end of the stream, or the handlers after it and
whether `Run` returns. -/
inductive After where
  | eof
  | go (b : B) (back : Bool)

def step (fo : FloatOps) (stale : Bool) (b : B) (e : YEv) : Out After :=
  let tell (a : AEv) (back : Bool) : Out After := do return .go (← event fo.fltText b a) back
  match e with
  | .noEvent => .ok (.go b false)
  | .streamStart => .ok (.go b false)
  | .streamEnd => .ok .eof
  | .docStart => tell .beginDoc false
  | .docEnd => tell .endDoc true
  | .alias n => tell (.alias n) false
  | .scalar a tag style value => do
    let v ← parseScalar fo stale tag style value
    tell (.scalar a v) false
  | .seqStart a => tell (.beginList a) false
  | .seqEnd => tell .endList false
  | .mapStart a => tell (.beginMap a) false
  | .mapEnd => tell .endMap false

/-- The loop of `Run` (src/YAMLParser.cc 92-161) inside the loop of `ParseVariant` (src/VariantParsing.cc 212).
`below`: there are handlers of a `ParseVariant` that did not come to its end below the new ones; they refer to its
`ParserState`, which is gone, so that using them is undefined.  `stale`: the state of `errno`, by the number of events
left.  `none`: no result yet with this fuel. -/
def loop (fo : FloatOps) (stale : Nat → Bool) (below : Bool) : Nat → Rd → B → Option (Rd × Out (B × Bool))
  | 0, _, _ => none
  | fuel + 1, r, b =>
    match parse r with
    | (r, none) => some (r, .throw .runtime)
    | (r, some e) =>
      match step fo (stale r.evs.length) b e with
      | .throw x => some (r, .throw x)
      | .ub => some (r, .ub)
      | .ok .eof => some (r, .ok (b, true))
      | .ok (.go b back) =>
        if b.frames.isEmpty then
          if back || !below then some (r, .ok (b, false)) else some (r, .ub)
        else loop fo stale below fuel r b

/-- A parser object between two calls of `ParseVariant`. -/
structure Parser where
  rd : Rd
  eof : Bool
  below : Bool
  deriving DecidableEq, Repr

/-- A new parser, for what libyaml reads from the input. -/
def Parser.new (evs : List YEv) : Parser := ⟨⟨evs, false⟩, false, false⟩

/-- `Done` (src/YAMLParser.cc 165-167). -/
def Parser.done (p : Parser) : Bool := p.eof

/-- `ParseVariant` (src/VariantParsing.cc 208-214).  At the end of the stream and after an exception the handlers stay
on the stack. -/
def parseVariant (fo : FloatOps) (stale : Nat → Bool) (fuel : Nat) (p : Parser) : Option (Parser × Out Val) :=
  if p.eof then some ({ p with below := true }, .ok .null)
  else
    match loop fo stale p.below fuel p.rd B.init with
    | none => none
    | some (r, .throw x) => some (⟨r, false, true⟩, .throw x)
    | some (r, .ub) => some (⟨r, false, true⟩, .ub)
    | some (r, .ok (b, eof)) => some (⟨r, eof, eof || p.below⟩, .ok b.result)

/-- `Deserialize` (src/VariantParsing.cc 216-240) for what libyaml reads from the input. -/
def deserialize (fo : FloatOps) (stale : Nat → Bool) (evs : List YEv) : Option (Out Val) :=
  (parseVariant fo stale (evs.length + 1) (Parser.new evs)).map (·.2)

/-! ## The emitter -/

/-- `Style` of src/YAMLEmitter.h 68-72. -/
inductive CStyle where
  | any | block | flow
  deriving DecidableEq, Repr

/-- The events given to `yaml_emitter_emit`.  `plainOk`, `quotedOk`: the tag may be left out if the scalar is written
plain, or quoted. -/
inductive WEv where
  | streamStart | streamEnd
  | docStart (implicit : Bool) | docEnd (implicit : Bool)
  | seqStart (style : CStyle) | seqEnd
  | mapStart (style : CStyle) | mapEnd
  | scalar (tag : Option Bytes) (value : Bytes) (plainOk quotedOk : Bool) (style : Style)
  deriving DecidableEq, Repr

/-- The parts of `Config` used when values are written (src/YAMLEmitter.h 84-91); `default_scalar_style` is not among
them. -/
structure Conf where
  mapStyle : CStyle
  listStyle : CStyle
  implicitBegin : Bool
  implicitEnd : Bool
  deriving DecidableEq, Repr

/-- The defaults (src/YAMLEmitter.cc 44-53). -/
def Conf.init : Conf := ⟨.any, .any, false, false⟩

/-- What libyaml expects next: the node of a document, the end of a document, an item, a key or a value. -/
inductive Ctx where
  | node | docEnd | item | key | value
  deriving DecidableEq, Repr

/-- The context after a node. -/
def afterNode : List Ctx → Option (List Ctx)
  | .node :: r => some (.docEnd :: r)
  | .item :: r => some (.item :: r)
  | .key :: r => some (.value :: r)
  | .value :: r => some (.key :: r)
  | _ => none

/-- `yaml_emitter_emit` takes an event in a context, or refuses it.  (libyaml looks ahead and may refuse it only with
one of the next calls.) -/
def accept (c : List Ctx) (e : WEv) : Option (List Ctx) :=
  match e, c with
  | .docStart _, [] => some [.node]
  | .docEnd _, .docEnd :: r => some r
  | .scalar .., c => afterNode c
  | .seqStart _, c => (afterNode c).map (.item :: ·)
  | .mapStart _, c => (afterNode c).map (.key :: ·)
  | .seqEnd, .item :: r => some r
  | .mapEnd, .key :: r => some r
  | .streamEnd, [] => some []
  | _, _ => none

/-- The emitter object (src/YAMLEmitter.h 160-164): what libyaml expects, `in_document`, `closed`, and the events given
to libyaml. -/
structure Em where
  ctx : List Ctx
  inDoc : Bool
  closed : Bool
  out : List WEv
  deriving DecidableEq, Repr

/-- After the constructor (src/YAMLEmitter.cc 172-190, 390-396). -/
def Em.init : Em := ⟨[], false, false, [.streamStart]⟩

/-- `Emit(yaml_event_t &)` (src/YAMLEmitter.cc 398-403). -/
def give (e : Em) (w : WEv) : Out Em :=
  match accept e.ctx w with
  | some c => .ok { e with ctx := c, out := e.out ++ [w] }
  | none => .throw .runtime

/-- `EndDocument` (src/YAMLEmitter.cc 214-228) within a document. -/
def endDoc (cf : Conf) (e : Em) : Out Em := do
  let e ← give e (.docEnd cf.implicitEnd)
  return { e with inDoc := false }

/-- `CheckOutDocument` (src/YAMLEmitter.h 154-158). -/
def outside (cf : Conf) (e : Em) : Out Em := if e.inDoc then endDoc cf e else .ok e

/-- `BeginDocument` (src/YAMLEmitter.cc 197-212). -/
def beginDoc (cf : Conf) (e : Em) : Out Em := do
  let e ← outside cf e
  let e ← give e (.docStart cf.implicitBegin)
  return { e with inDoc := true }

/-- `CheckInDocument` (src/YAMLEmitter.h 148-152). -/
def inside (cf : Conf) (e : Em) : Out Em := if e.inDoc then .ok e else beginDoc cf e

/-- `CheckClosed` and `CheckInDocument` (src/YAMLEmitter.h 142-152), then an event. -/
def put (cf : Conf) (e : Em) (w : WEv) : Out Em :=
  if e.closed then .throw .runtime
  else do
    let e ← inside cf e
    give e w

/-- "null", "true", "false", ".nan", ".inf", "-.inf" -/
def tNull : Bytes := [110, 117, 108, 108]
def tTrue : Bytes := [116, 114, 117, 101]
def tFalse : Bytes := [102, 97, 108, 115, 101]
def tNan : Bytes := [46, 110, 97, 110]
def tInf : Bytes := [46, 105, 110, 102]
def tMinusInf : Bytes := [45, 46, 105, 110, 102]

/-- An integer printed by `oss <<`. -/
def intText (i : Int) : Bytes := if i < 0 then 45 :: natDec i.natAbs else natDec i.natAbs

/-- The text of a double (src/YAMLEmitter.cc 327-337); `ff`: what `oss <<` prints with the precision and `showpoint`. -/
def fltText (ff : UInt64 → Bytes) (d : UInt64) : Bytes :=
  if Event.isNaN d then tNan
  else if d = 0x7FF0000000000000 then tInf
  else if d = 0xFFF0000000000000 then tMinusInf
  else ff d

/-- The text of a blob (src/YAMLEmitter.cc 343-344), in one line; the buffer has the size for lines of 72. -/
def blobText (segs : List Bytes) : Out Bytes := do
  let t ← B64.encode segs 0
  if t.length + 1 ≤ (B64.encodeSize (UInt32.ofNat segs.flatten.length) 72).toNat then return t else .ub

/-- A scalar; libyaml refuses a text that is not UTF-8 (`utf8`). -/
def putScalar (utf8 : Bytes → Bool) (cf : Conf) (e : Em) (tag : Option Bytes) (t : Bytes) (implicit : Bool) (st : Style) : Out Em :=
  if e.closed then .throw .runtime
  else do
    let e ← inside cf e
    if utf8 t then give e (.scalar tag t implicit implicit st) else .throw .runtime

/-- A call of the emitter (src/YAMLEmitter.cc 197-352). -/
def emit (utf8 : Bytes → Bool) (ff : UInt64 → Bytes) (cf : Conf) (e : Em) : Call → Out Em
  | .beginDoc => if e.closed then .throw .runtime else beginDoc cf e
  | .endDoc =>
    if e.closed then .throw .runtime
    else do
      let e ← inside cf e
      endDoc cf e
  | .beginMap _ => put cf e (.mapStart cf.mapStyle)
  | .endMap => put cf e .mapEnd
  | .beginList _ => put cf e (.seqStart cf.listStyle)
  | .endList => put cf e .seqEnd
  | .null => putScalar utf8 cf e none tNull true .plain
  | .bool true => putScalar utf8 cf e none tTrue true .plain
  | .bool false => putScalar utf8 cf e none tFalse true .plain
  | .str s => putScalar utf8 cf e none (cstr s) true .any
  | .int i => putScalar utf8 cf e none (intText i.toInt) true .plain
  | .uint u => putScalar utf8 cf e none (natDec u.toNat) true .plain
  | .flt d => putScalar utf8 cf e none (fltText ff d) true .plain
  | .blob segs => do
    if e.closed then .throw .runtime
    else do
      let e ← inside cf e
      let t ← blobText segs
      putScalar utf8 cf e (some binaryTag) t false .any

/-- A sequence of calls. -/
def emits (utf8 : Bytes → Bool) (ff : UInt64 → Bytes) (cf : Conf) : Em → List Call → Out Em
  | e, [] => .ok e
  | e, c :: cs => do
    let e ← emit utf8 ff cf e c
    emits utf8 ff cf e cs

/-- `Close` (src/YAMLEmitter.cc 361-375): `Close` on a closed emitter does nothing. -/
def close (cf : Conf) (e : Em) : Out Em :=
  if e.closed then .ok e
  else do
    let e ← outside cf e
    let e ← give e .streamEnd
    return { e with closed := true }

/-- `Serialize` (src/VariantEmitting.cc 68-95). -/
def serialize (utf8 : Bytes → Bool) (ff : UInt64 → Bytes) (cf : Conf) (v : Val) : Out (List WEv) := do
  let e ← emits utf8 ff cf Em.init (Event.valTree v).calls
  let e ← close cf e
  return e.out

/-- Values written one after the other, each in a document of its own. -/
def serializeAll (utf8 : Bytes → Bool) (ff : UInt64 → Bytes) (cf : Conf) (vs : List Val) : Out (List WEv) := do
  let e ← emits utf8 ff cf Em.init (vs.flatMap (fun v => .beginDoc :: ((Event.valTree v).calls ++ [.endDoc])))
  let e ← close cf e
  return e.out

/-! ## libyaml -/

/-- What libyaml reads where it has written: `plain k t` tells whether the scalar `t`, with `k` events behind it, is
written plain.  A tag is written unless it may be left out. -/
def readerEvent (plain : Nat → Bytes → Bool) (k : Nat) : WEv → YEv
  | .streamStart => .streamStart
  | .streamEnd => .streamEnd
  | .docStart _ => .docStart
  | .docEnd _ => .docEnd
  | .seqStart _ => .seqStart []
  | .seqEnd => .seqEnd
  | .mapStart _ => .mapStart []
  | .mapEnd => .mapEnd
  | .scalar tag t _ _ _ => .scalar [] tag (if plain k t then .plain else .double) t

def readerEvents (plain : Nat → Bytes → Bool) : List WEv → List YEv
  | [] => []
  | w :: ws => readerEvent plain ws.length w :: readerEvents plain ws

end Verif.Yaml
