import Verif.Base.Outcome
/-!
# Recorded events: `EventBuffer` and the buffering MessagePack emitter

src/EventBuffer.h, src/EventBuffer.cc and src/MsgPackEmitter.cc.
-/

namespace Verif.Event

/-- A call of the `EmitterImpl` interface with its arguments (include/Variant/Emitter.h 39-54).
`BeginMap`/`BeginList` carry the announced length (negative: unknown). -/
inductive Call where
  | beginDoc | endDoc
  | beginMap (length : Int) | endMap
  | beginList (length : Int) | endList
  | null | bool (b : Bool) | str (s : Bytes) | int (i : Int64) | uint (u : UInt64)
  | flt (bits : UInt64) | blob (segs : List Bytes)
  deriving Repr, DecidableEq

/-- A `const char *` argument made from a `std::string` (src/Emitter.cc 99-101, `v.c_str()`; also
src/EventBuffer.h 36-39 on playback): the bytes before the first NUL. -/
def cstr (s : Bytes) : Bytes := s.takeWhile (· ≠ 0)

/-- `EventType_t` with the payload of scalars (src/EventBuffer.h 59-80). -/
inductive Kind where
  | beginDoc | endDoc | beginMap | endMap | beginList | endList
  | null | bool (b : Bool) | str (s : Bytes) | int (i : Int64) | uint (u : UInt64)
  | flt (bits : UInt64) | blob (segs : List Bytes)
  deriving Repr, DecidableEq

/-- `struct EventBuffer::Event` (src/EventBuffer.h 82-128).  `parent` is the position in the
deque of the event pointed to (deque elements do not move on `push_back`); `len` is `val.len`
(64 bits; a buffer never holds 2^64 events). -/
structure Ev where
  kind : Kind
  parent : Option Nat
  len : Nat
  key : Bool
  deriving Repr, DecidableEq

/-- The constructors of `Event` (src/EventBuffer.h 83-90). -/
def Ev.new (k : Kind) (p : Option Nat) : Ev := ⟨k, p, 0, true⟩

/-- `Event::Update` (src/EventBuffer.h 93-104). -/
def Ev.update (e : Ev) : Ev :=
  match e.kind with
  | .beginMap => if e.key then { e with key := false } else { e with key := true, len := e.len + 1 }
  | .beginList => { e with len := e.len + 1 }
  | _ => e

/-- `Event::Parent` (src/EventBuffer.h 106-110), for the event at position `i`. -/
def Ev.up (e : Ev) (i : Nat) : Option Nat :=
  match e.kind with
  | .beginMap => some i
  | .beginList => some i
  | _ => e.parent

/-- The buffer: `events` and `level` (src/EventBuffer.h 250-251). -/
structure Buf where
  events : List Ev
  level : Int
  deriving Repr

/-- The default constructor (src/EventBuffer.h 150). -/
def Buf.empty : Buf := ⟨[], 0⟩

/-- `EventBuffer::Parent` (src/EventBuffer.h 132-135). -/
def parentOf (es : List Ev) : Option Nat :=
  match es.getLast? with
  | none => none
  | some e => e.up (es.length - 1)

/-- The store made by `p->Update()` in `ParentUpdate` (src/EventBuffer.h 137-141). -/
def updateAt (es : List Ev) : Option Nat → List Ev
  | none => es
  | some i => es.modify i Ev.update

/-- `EventBuffer::GrandParent` (src/EventBuffer.h 143-147). -/
def grandParent (es : List Ev) : Option Nat :=
  match parentOf es with
  | none => none
  | some i => match es[i]? with
    | some e => e.parent
    | none => none

/-- Append an event whose parent is `ParentUpdate()`. -/
def pushChild (es : List Ev) (k : Kind) : List Ev :=
  updateAt es (parentOf es) ++ [Ev.new k (parentOf es)]

/-- The `EmitterImpl` functions of `EventBuffer` (src/EventBuffer.h 154-191). -/
def record (b : Buf) : Call → Buf
  | .beginDoc => ⟨b.events ++ [Ev.new .beginDoc (parentOf b.events)], b.level + 1⟩
  | .endDoc => ⟨b.events ++ [Ev.new .endDoc (grandParent b.events)], b.level - 1⟩
  | .beginMap _ => ⟨pushChild b.events .beginMap, b.level + 1⟩
  | .endMap => ⟨b.events ++ [Ev.new .endMap (grandParent b.events)], b.level - 1⟩
  | .beginList _ => ⟨pushChild b.events .beginList, b.level + 1⟩
  | .endList => ⟨b.events ++ [Ev.new .endList (grandParent b.events)], b.level - 1⟩
  | .null => ⟨pushChild b.events .null, b.level⟩
  | .bool v => ⟨pushChild b.events (.bool v), b.level⟩
  | .str s => ⟨pushChild b.events (.str (cstr s)), b.level⟩
  | .int i => ⟨pushChild b.events (.int i), b.level⟩
  | .uint u => ⟨pushChild b.events (.uint u), b.level⟩
  | .flt d => ⟨pushChild b.events (.flt d), b.level⟩
  | .blob s => ⟨pushChild b.events (.blob s), b.level⟩

/-- A sequence of calls. -/
def recordAll (b : Buf) : List Call → Buf
  | [] => b
  | c :: cs => recordAll (record b c) cs

/-- The conversion of `uintmax_t val.len` to the `int length` parameter. -/
def toInt32 (n : Nat) : Int := Int.bmod n (2 ^ 32)

/-- `Event::Fire` (src/EventBuffer.cc 16-60) on `EmitterParserActions`
(src/EventBuffer.h 20-53): the call made on the receiving emitter.  `blob->Copy()` makes one
buffer with the blob's bytes (property C24; blob totals are below 2^32). -/
def fire (e : Ev) : Call :=
  match e.kind with
  | .beginDoc => .beginDoc
  | .endDoc => .endDoc
  | .beginMap => .beginMap (toInt32 e.len)
  | .endMap => .endMap
  | .beginList => .beginList (toInt32 e.len)
  | .endList => .endList
  | .null => .null
  | .bool b => .bool b
  | .str s => .str (cstr s)
  | .int i => .int i
  | .uint u => .uint u
  | .flt d => .flt d
  | .blob s => .blob [s.flatten]

/-- `Playback` (src/EventBuffer.h 204-209) with `Run` (221-228): the calls made, in order. -/
def playback (b : Buf) : List Call := b.events.map fire

/-! ## Comparing recordings -/

/-- The bits of the union member `val` (src/EventBuffer.h 119-125), as seen through the 64-bit
members; a bool occupies the low byte, the other bytes being indeterminate (here zero). -/
def Ev.bits (e : Ev) : UInt64 :=
  match e.kind with
  | .bool b => if b then 1 else 0
  | .int i => i.toUInt64
  | .uint u => u
  | .flt d => d
  | _ => UInt64.ofNat e.len

/-- `d` is a NaN. -/
def isNaN (d : UInt64) : Bool := (d &&& 0x7FF0000000000000 == 0x7FF0000000000000) && (d &&& 0x000FFFFFFFFFFFFF != 0)

/-- `a == b` for doubles given by their bits. -/
def dblEq (a b : UInt64) : Bool :=
  !isNaN a && !isNaN b && (a == b || (a <<< 1 == 0 && b <<< 1 == 0))

/-- The string member, empty for other events. -/
def Ev.s (e : Ev) : Bytes := match e.kind with | .str s => s | _ => []

/-- `EventType_t` without the payload. -/
def Kind.tag : Kind → Nat
  | .beginDoc => 1 | .endDoc => 2 | .beginMap => 4 | .endMap => 8 | .beginList => 16
  | .endList => 32 | .null => 64 | .bool _ => 128 | .str _ => 256 | .int _ => 512
  | .uint _ => 1024 | .flt _ => 2048 | .blob _ => 4096

/-- `Event::operator==` (src/EventBuffer.cc 62-79). -/
def evEq (a b : Ev) : Bool :=
  match a.kind with
  | .bool x => x == (b.bits &&& 0xFF != 0)
  | .flt d => dblEq d b.bits || (isNaN d && isNaN b.bits)
  | .str s => s == b.s
  | .int i => i.toUInt64 == b.bits
  | .uint u => u == b.bits
  | k => k.tag == b.kind.tag

/-- `EventBuffer::Equal` (src/EventBuffer.h 236-238): `std::deque` equality, sizes first. -/
def equal (a b : Buf) : Bool :=
  a.events.length == b.events.length && (a.events.zip b.events).all fun p => evEq p.1 p.2

/-! ## The MessagePack emitter -/

/-- The functions of the msgpack library used by the emitter (src/MsgPackEmitter.cc).  The
library itself is not part of the repository. -/
inductive Pk where
  | map (n : Nat) | array (n : Nat)
  | nil | bool (b : Bool) | string (s : Bytes) | int64 (i : Int64) | uint64 (u : UInt64)
  | double (d : UInt64) | raw (n : Nat) (body : Bytes)
  deriving Repr, DecidableEq

/-- `MAGIC_BLOB_TAG` (src/BlobMagic.h): NUL, "BLOB". -/
def blobTag : Bytes := [0, 0x42, 0x4C, 0x4F, 0x42]

/-- `MsgPackEmitterImpl`: the pending `EventBuffer` and the library calls made so far. -/
structure MP where
  buffer : Option Buf
  out : List Pk
  deriving Repr

/-- The library calls made for a call when nothing is buffered and the length is known
(src/MsgPackEmitter.cc 38-46, 59-67, 80-124).  `GetTotalLength() + 5` is 32-bit;
`msgpack_pack_raw` and the `msgpack_pack_raw_body` calls that follow it, which only append
their bytes, are one `Pk.raw`. -/
def pack : Call → List Pk
  | .beginDoc => []
  | .endDoc => []
  | .beginMap n => [.map n.toNat]
  | .endMap => []
  | .beginList n => [.array n.toNat]
  | .endList => []
  | .null => [.nil]
  | .bool b => [.bool b]
  | .str s => [.string (cstr s)]
  | .int i => [.int64 i]
  | .uint u => [.uint64 u]
  | .flt d => [.double d]
  | .blob segs => [.raw ((segs.flatten.length + 5) % 2 ^ 32) (blobTag ++ segs.flatten)]

/-- `length < 0` for the two begin functions (src/MsgPackEmitter.cc 40, 61). -/
def unknownLength : Call → Bool
  | .beginMap n => n < 0
  | .beginList n => n < 0
  | _ => false

/-- The two end functions (src/MsgPackEmitter.cc 48-57, 69-78). -/
def isEnd : Call → Bool
  | .endMap => true
  | .endList => true
  | _ => false

mutual
/-- One call on `MsgPackEmitterImpl` (src/MsgPackEmitter.cc 31-124).  `fuel` bounds how deeply
playback is nested in playback (playing back on `this` can itself start a buffer);
`none` when it is used up.  Documents are not buffered (31-36). -/
def mp (fuel : Nat) (m : MP) (c : Call) : Option MP :=
  match m.buffer with
  | some b =>
    if c = .beginDoc ∨ c = .endDoc then some m
    else
      let b := record b c
      if isEnd c = true ∧ b.level ≤ 0 then
        match fuel with
        | 0 => none
        | fuel + 1 => mpAll fuel { m with buffer := none } (playback b)
      else some { m with buffer := some b }
  | none =>
    if unknownLength c then some { m with buffer := some (record Buf.empty c) }
    else some { m with out := m.out ++ pack c }
termination_by (fuel, 0)
/-- A sequence of calls on `MsgPackEmitterImpl`. -/
def mpAll (fuel : Nat) (m : MP) (cs : List Call) : Option MP :=
  match cs with
  | [] => some m
  | c :: cs => match mp fuel m c with
    | none => none
    | some m => mpAll fuel m cs
termination_by (fuel, cs.length + 1)
end

/-- A new emitter (src/MsgPackEmitter.cc 20-24). -/
def MP.init : MP := ⟨none, []⟩

end Verif.Event
