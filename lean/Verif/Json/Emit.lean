import Verif.Val.Basic
import Verif.Base.Decimal
import Verif.Base64.Model
import Verif.Blob.Model
/-!
# Model of the JSON emitter, `src/JSONEmitter.cc`

Two layers.  The upper layer turns emitter calls into *pieces* (`EmitRaw`, runs of blanks,
`Flush`); the lower layer executes pieces against the 512-byte buffer and an output that may
accept fewer bytes than offered.  An output that throws or accepts nothing is in Sink/Model.
-/

namespace Verif.JsonEmit

/-- Parameters (src/JSONEmitter.cc 41-53), all settable by the caller. -/
structure Cfg where
  pretty : Bool
  strict : Bool
  indent : Nat          -- unsigned num_indent
  precision : Nat

/-- `setprecision(p) << showpoint << v` for a finite `v` given by its bits; the digits the C++
library chooses are a parameter of the model. -/
abbrev FloatFmt := Nat → UInt64 → Bytes

/-- `isnan(v) || isinf(v)` on IEEE 754 binary64 bits: all exponent bits set. -/
def nonFinite (b : UInt64) : Bool := (b >>> 52) &&& 0x7ff == 0x7ff

/-- The states of the emitter stack (src/JSONEmitter.h `State_t`). -/
inductive ES where
  | mapFirst | mapKey | mapValue | listFirst | inList
  deriving DecidableEq, Repr

/-- A piece of output: `EmitRaw(text, len)`, the blanks of `EmitIndent`, or `Flush`. -/
inductive Chunk where
  | raw (b : Bytes)
  | spaces (n : Nat)
  | flush
  deriving DecidableEq, Repr

/-- `EmitIndent` (src/JSONEmitter.cc 223-241) at a nesting depth; `unsigned indent` wraps. -/
def emitIndent (c : Cfg) (depth : Nat) : List Chunk :=
  if c.pretty then [.raw [10], .spaces (depth * c.indent % 2 ^ 32)] else []

/-- `CheckSeparator` (src/JSONEmitter.cc 194-221); the stack has its top first. -/
def checkSep (c : Cfg) (st : List ES) : List Chunk × List ES :=
  match st with
  | [] => ([], [])
  | .mapFirst :: r => (emitIndent c st.length, .mapValue :: r)
  | .mapKey :: r => (.raw [0x2c] :: emitIndent c st.length, .mapValue :: r)
  | .mapValue :: r => ([.raw [0x3a, 0x20]], .mapKey :: r)
  | .listFirst :: r => (emitIndent c st.length, .inList :: r)
  | .inList :: r => (.raw [0x2c] :: emitIndent c st.length, .inList :: r)

/-- One lower-case hexadecimal digit, as printed by `%x`. -/
def hexDigit (n : Nat) : UInt8 := if n < 10 then UInt8.ofNat (48 + n) else UInt8.ofNat (87 + n)

/-- The text emitted for one byte of a string (src/JSONEmitter.cc 247-272); bytes of 0x80 and
above are negative `char`s and copied. -/
def escChar (b : UInt8) : Bytes :=
  if b = 0x5c then [0x5c, 0x5c]
  else if b = 0x22 then [0x5c, 0x22]
  else if b = 8 then [0x5c, 0x62]
  else if b = 12 then [0x5c, 0x66]
  else if b = 10 then [0x5c, 0x6e]
  else if b = 13 then [0x5c, 0x72]
  else if b = 9 then [0x5c, 0x74]
  else if b ≥ 128 then [b]
  else if b < 0x20 then [0x5c, 0x75, 0x30, 0x30, hexDigit (b.toNat / 16), hexDigit (b.toNat % 16)]
  else [b]

/-- The part of a `std::string` before its first NUL, as seen through `c_str()`/`strlen`. -/
def cstr (s : Bytes) : Bytes := s.takeWhile (· ≠ 0)

/-- `Emit(const char*)` after the separator (src/JSONEmitter.cc 105-108, 243-276); the length
passes through an `unsigned`. -/
def emitString (s : Bytes) : List Chunk :=
  let t := cstr s
  .raw [0x22] :: ((t.take (t.length % 2 ^ 32)).map fun b => .raw (escChar b)) ++ [.raw [0x22]]

/-- `oss << v` for a signed integer. -/
def intDec (i : Int) : Bytes := if i < 0 then 45 :: natDec i.natAbs else natDec i.natAbs

/-- The virtual calls of `EmitterImpl` made for values (include/Variant/Emitter.h 33-58).
`BeginDocument`/`EndDocument` do nothing (src/JSONEmitter.cc 58-62); announced lengths are
ignored (64, 77). -/
inductive Op where
  | beginMap | endMap | beginList | endList
  | null | tru | fals
  | str (s : Bytes) | int (i : Int64) | uint (u : UInt64) | flt (bits : UInt64)
  | blob (segs : List Bytes)
  deriving Repr

/-- One emitter call (src/JSONEmitter.cc 64-150): the pieces and the new stack.
`state.pop_back()` on an empty stack, and base64 text that does not fit its vector, are
undefined behaviour. -/
def emitOp (ff : FloatFmt) (c : Cfg) (st : List ES) : Op → Out (List Chunk × List ES)
  | .beginMap =>
    let (s, st) := checkSep c st
    .ok (s ++ [.raw [0x7b]], .mapFirst :: st)
  | .beginList =>
    let (s, st) := checkSep c st
    .ok (s ++ [.raw [0x5b]], .listFirst :: st)
  | .endMap =>
    match st with
    | [] => .ub
    | _ :: r => .ok (emitIndent c r.length ++ [.raw [0x7d], .flush], r)
  | .endList =>
    match st with
    | [] => .ub
    | _ :: r => .ok (emitIndent c r.length ++ [.raw [0x5d], .flush], r)
  | .null =>
    let (s, st) := checkSep c st
    .ok (s ++ [.raw [0x6e, 0x75, 0x6c, 0x6c]], st)
  | .tru =>
    let (s, st) := checkSep c st
    .ok (s ++ [.raw [0x74, 0x72, 0x75, 0x65]], st)
  | .fals =>
    let (s, st) := checkSep c st
    .ok (s ++ [.raw [0x66, 0x61, 0x6c, 0x73, 0x65]], st)
  | .str t =>
    let (s, st) := checkSep c st
    .ok (s ++ emitString t, st)
  | .int i =>
    let (s, st) := checkSep c st
    .ok (s ++ [.raw (intDec i.toInt)], st)
  | .uint u =>
    let (s, st) := checkSep c st
    .ok (s ++ [.raw (natDec u.toNat)], st)
  | .flt b =>
    let (s, st) := checkSep c st
    if nonFinite b then
      if c.strict then .throw .runtime
      else .ok (s ++ [.raw [0x6e, 0x75, 0x6c, 0x6c]], st)
    else .ok (s ++ [.raw (ff c.precision b)], st)
  | .blob segs =>
    if c.strict then .throw .runtime
    else do
      let (s, st) := checkSep c st
      let t ← B64.encode segs 0
      let cap := B64.encodeSize (UInt32.ofNat (Blob.totalLength (segs.map (·.length)))) 0
      if t.length + 1 ≤ cap.toNat then
        .ok (s ++ [.raw [0x22], .raw [0x5c, 0x75, 0x30, 0x30, 0x30, 0x30, 0x42, 0x4c, 0x4f, 0x42],
                   .raw t, .raw [0x22]], st)
      else .ub

/-- A sequence of calls. -/
def emitOps (ff : FloatFmt) (c : Cfg) (st : List ES) : List Op → Out (List Chunk × List ES)
  | [] => .ok ([], st)
  | o :: os => do
    let (a, st) ← emitOp ff c st o
    let (b, st) ← emitOps ff c st os
    return (a ++ b, st)

mutual
/-- `operator<<(Emitter&, const Variant&)` (src/VariantEmitting.cc 28-66) with the container
overloads (include/Variant/Emitter.h 110-131). -/
def opsOf : Val → List Op
  | .null => [.null]
  | .bool true => [.tru]
  | .bool false => [.fals]
  | .int i => [.int i]
  | .uint u => [.uint u]
  | .flt b => [.flt b]
  | .str s => [.str s]
  | .list xs => .beginList :: (opsOfList xs ++ [.endList])
  | .map m => .beginMap :: (opsOfMap m ++ [.endMap])
  | .blob segs => [.blob segs]
def opsOfList : List Val → List Op
  | [] => []
  | x :: xs => opsOf x ++ opsOfList xs
def opsOfMap : List (Bytes × Val) → List Op
  | [] => []
  | (k, x) :: m => .str k :: (opsOf x ++ opsOfMap m)
end

/-! ## The buffer -/

/-- The emitter's buffer contents, everything the output has accepted so far, and the number
of `Write` calls made. -/
structure Mach where
  buf : Bytes
  out : Bytes
  calls : Nat
  deriving Repr

/-- One `Write` of a non-empty block: the `i`-th call accepts between one byte and all of
them, as chosen by `w`.  Returns how many. -/
def accept (w : Nat → Nat) (i len : Nat) : Nat := min len (1 + w i)

/-- The loop `while (num_written < len) num_written += Write(...)` over `len` bytes, each
block at most `cap` long (src/JSONEmitter.cc 155-157, 231-233, 285-287). -/
def writeAll (w : Nat → Nat) (cap : Nat) (m : Mach) (data : Bytes) : Mach :=
  match data with
  | [] => m
  | x :: xs =>
    let n := accept w m.calls (min (x :: xs).length (cap + 1))
    writeAll w cap { m with out := m.out ++ (x :: xs).take n, calls := m.calls + 1 } ((x :: xs).drop n)
termination_by data.length
decreasing_by simp [accept]; omega

/-- `Flush` (src/JSONEmitter.cc 152-161); `cap` large means whole blocks. -/
def flush (w : Nat → Nat) (m : Mach) : Mach :=
  { writeAll w m.buf.length m m.buf with buf := [] }

/-- `memcpy`/`memset` into the buffer (src/JSONEmitter.cc 238-239, 292-293): overrunning its
512 bytes is undefined behaviour. -/
def store (m : Mach) (b : Bytes) : Out Mach :=
  if m.buf.length + b.length > 512 then .ub else .ok { m with buf := m.buf ++ b }

/-- `EmitRaw` (src/JSONEmitter.cc 281-295) and the blanks of `EmitIndent` (226-240). -/
def execChunk (w : Nat → Nat) (m : Mach) : Chunk → Out Mach
  | .flush => .ok (flush w m)
  | .raw b =>
    if b.length > 128 then .ok (writeAll w b.length (flush w m) b)
    else store (if b.length + m.buf.length > 512 then flush w m else m) b
  | .spaces n =>
    if n > 128 then .ok (writeAll w 127 (flush w m) (List.replicate n 32))
    else store (if n + m.buf.length > 512 then flush w m else m) (List.replicate n 32)

def exec (w : Nat → Nat) (m : Mach) : List Chunk → Out Mach
  | [] => .ok m
  | c :: cs => do
    let m ← execChunk w m c
    exec w m cs

/-- Emitting a sequence of calls and then `Close` (src/JSONEmitter.cc 163-165): everything the
output accepted. -/
def emitAll (ff : FloatFmt) (c : Cfg) (w : Nat → Nat) (ops : List Op) : Out Bytes := do
  let (cs, _) ← emitOps ff c [] ops
  let m ← exec w ⟨[], [], 0⟩ cs
  return (flush w m).out

/-- `Serialize` (src/VariantEmitting.cc 68-98) to an output that accepts blocks as `w` says. -/
def serialize (ff : FloatFmt) (c : Cfg) (w : Nat → Nat) (v : Val) : Out Bytes :=
  emitAll ff c w (opsOf v)

end Verif.JsonEmit
