import Verif.Guess.Model
import Verif.Build.Model
import Verif.Event.MsgPack
import Verif.IO.Stream
/-!
# Bundle headers (src/BundleHdrParser.cc, src/BundleHdrEmitter.cc) and guessing the format (src/GuessFormat.cc)

C locale; bytes above 127 are not blank.
-/

namespace Verif.Bundle
open Verif Verif.JsonDrv
open Verif.Event (Call cstr)
open Verif.Build (PEv)

/-! ## Inputs -/

/-- A `ParserInput` (include/Variant/ParserInput.h 31-42).  `get`: the new state and the bytes given out (none: null);
`none` if the call does not return.  `release`: `none` if more is released than there is. -/
structure Input (σ : Type) where
  get : σ → Nat → Option (σ × Bytes)
  release : σ → Nat → Option σ

/-- `ParserMemoryInput` (src/ParserInput.cc 94-111): the state is what is left. -/
def memory : Input Bytes where
  get s _ := some (s, s)
  release s n := if n ≤ s.length then some (s.drop n) else none

/-- `ParserStreamInput` (src/ParserInput.cc 39-89) over a file or stream whose reads are short only at the end. -/
def stream : Input IO.SIn where
  get s n := IO.getPtr (fun n _ => n) s n
  release := IO.release

/-! ## The parser -/

/-- `ReadLine` (src/BundleHdrParser.cc 17-33) from `line_len = pos`, requesting `len` bytes.  The result is the line
without its newline; no line is null.  `none`: does not end within `fuel` requests. -/
def readLine {σ : Type} (I : Input σ) : Nat → σ → Nat → Nat → Option (σ × Option Bytes)
  | 0, _, _, _ => none
  | fuel + 1, s, pos, len =>
    match I.get s len with
    | none => none
    | some (s, v) =>
      if v = [] ∨ pos = v.length then some (s, none)                                -- 22-25
      else if 10 ∈ v.drop pos then                                                  -- 26-30
        some (s, some (v.take pos ++ (v.drop pos).takeWhile (· ≠ 10)))
      else readLine I fuel s v.length (v.length + 4096)                             -- 31

/-- One of `:`, blank and tab, which end a key (src/BundleHdrParser.cc 54-56). -/
def endsKey (c : UInt8) : Bool := c == 58 || c == 32 || c == 9

/-- `ScanLine` (src/BundleHdrParser.cc 41-80): key and value without their NULs. -/
def scanLine (line : Bytes) : Option (Bytes × Bytes) :=
  if line = [] then none                                                            -- 44
  else
    let c := line.dropWhile isSpace                                                 -- 50
    let key := c.takeWhile fun b => !endsKey b                                      -- 52-66
    if 35 ∈ key then none                                                           -- 59-60
    else
      match (c.dropWhile fun b => !endsKey b).dropWhile isSpace with                -- 68
      | [] => none                                     -- 69: the byte at the end is the newline
      | b :: r =>
        if b = 58 then some (key, (r.dropWhile isSpace).takeWhile (· ≠ 35))         -- 72-77
        else none

/-- "bundle.version" (src/BundleHdrParser.cc 13) -/
def versionKey : Bytes := [98, 117, 110, 100, 108, 101, 46, 118, 101, 114, 115, 105, 111, 110]

/-- The value up to its first NUL without blanks at the end (src/BundleHdrParser.cc 117-118). -/
def valueText (raw : Bytes) : Bytes := ((cstr raw).reverse.dropWhile isSpace).reverse

/-- The pieces `strtok_r` finds between bars; empty ones are passed over (src/BundleHdrParser.cc 132, 146). -/
def tokens (fuel : Nat) (s : Bytes) : List Bytes :=
  match fuel with
  | 0 => []
  | fuel + 1 =>
    match s.dropWhile (· = 124) with
    | [] => []
    | c :: r => (c :: r).takeWhile (· ≠ 124) :: tokens fuel (((c :: r).dropWhile (· ≠ 124)).drop 1)

/-- The text at `&value[0]` after `strtok_r` found at most one piece: bars before it stay, the bar that ends it became
a NUL (src/BundleHdrParser.cc 137). -/
def oneText (s : Bytes) : Bytes := s.takeWhile (· = 124) ++ (s.dropWhile (· = 124)).takeWhile (· ≠ 124)

/-- `bar_at_end` (src/BundleHdrParser.cc 130): the last byte of the value, which a blank at the end hides (it was
overwritten by a NUL). -/
def barAtEnd (raw : Bytes) : Bool := raw.getLast? == some 124

/-- What the parser tells its handler (`text`: handed to `GuessScalar`). -/
inductive BEv where
  | beginDoc | endDoc | beginMap | endMap | beginList | endList
  | key (s : Bytes)
  | text (s : Bytes)
  deriving DecidableEq, Repr

/-- The state and, in `VALUE`, the bytes of `value` as `ScanLine` stored them, and in `LIST` the pieces
(src/BundleHdrParser.h 20-30).  The pieces point into `value` after `value.clear()`; its memory is not touched
meanwhile. -/
inductive St where
  | start | beginMap | key | value (raw : Bytes) | list (ts : List Bytes) | endMap | «end» | stop
  deriving DecidableEq, Repr

/-- The loop of state `KEY` (src/BundleHdrParser.cc 102-124). -/
def readKey {σ : Type} (I : Input σ) (lineFuel : Nat) : Nat → σ → Option (σ × St × List BEv)
  | 0, _ => none
  | fuel + 1, s =>
    match readLine I lineFuel s 0 0 with
    | none => none
    | some (s, none) => some (s, .endMap, [])                                       -- 104-107
    | some (s, some line) =>
      match I.release s (line.length + 1) with                                      -- 110
      | none => none
      | some s =>
        match scanLine line with
        | none => readKey I lineFuel fuel s
        | some (k, raw) =>
          if cstr k = versionKey then readKey I lineFuel fuel s                     -- 113-115
          else some (s, .value raw, [.key (cstr k)])

/-- One round of `Run` (src/BundleHdrParser.cc 83-175); `none`: it does not end, or throws. -/
def step {σ : Type} (I : Input σ) (fuel : Nat) (s : σ) : St → Option (σ × St × List BEv)
  | .start =>                                                                       -- 85-96
    match I.get s 0 with
    | none => none
    | some (s, []) => some (s, .stop, [])
    | some (s, _ :: _) => some (s, .beginMap, [.beginDoc])
  | .beginMap => some (s, .key, [.beginMap])                                        -- 97-100
  | .key => readKey I fuel fuel s
  | .value raw =>                                                                   -- 126-150
    let ts := tokens (valueText raw).length (valueText raw)
    if ts.length ≤ 1 ∧ barAtEnd raw = false then some (s, .key, [.text (oneText (valueText raw))])
    else some (s, .list ts, [.beginList])
  | .list [] => some (s, .key, [.endList])                                          -- 151-160
  | .list (t :: ts) => some (s, .list ts, [.text t])
  | .endMap => some (s, .end, [.endMap])                                            -- 161-164
  | .end => some (s, .stop, [.endDoc])                                              -- 165-168
  | .stop => some (s, .stop, [])                                                    -- 169-170

/-- `Run` until it stops: everything told to the handler.  (`EndDocument` takes the handler off the stack, which also
leaves `Run`; nothing follows it.) -/
def run {σ : Type} (I : Input σ) (lineFuel : Nat) : Nat → σ → St → Option (List BEv)
  | 0, _, _ => none
  | fuel + 1, s, st =>
    if st = .stop then some []
    else
      match step I lineFuel s st with
      | none => none
      | some (s, st, es) => (run I lineFuel fuel s st).map (es ++ ·)

/-- The event the handler gets; a text goes through `GuessScalar` (src/GuessScalar.cc 70-117), which also depends on
`errno` as it happens to be. -/
def BEv.pev (fo : FloatOps) (stale : Bool) : BEv → PEv
  | .beginDoc => .beginDoc
  | .endDoc => .endDoc
  | .beginMap => .beginMap
  | .endMap => .endMap
  | .beginList => .beginList
  | .endList => .endList
  | .key s => .scalar (.str s)
  | .text s => .scalar (Guess.guess fo stale s)

/-- The events with `errno` as it is at each of them. -/
def pevs (fo : FloatOps) : (Nat → Bool) → List BEv → List PEv
  | _, [] => []
  | stale, e :: es => e.pev fo (stale 0) :: pevs fo (fun n => stale (n + 1)) es

/-- `ParseVariant` with a bundle header parser (src/VariantParsing.cc 208-214). -/
def deserialize {σ : Type} (fo : FloatOps) (stale : Nat → Bool) (I : Input σ) (fuel : Nat) (s : σ) : Option (Out Val) :=
  match run I fuel fuel s .start with
  | none => none
  | some es => some do
    let b ← Build.events fo.fltText Build.BState.init (pevs fo stale es)
    return b.result

/-! ## The emitter -/

/-- `BHEState_t` (src/BundleHdrEmitter.h 24-33). -/
inductive ESt where
  | start | begin | key | value | listStart | list | «end» | stop
  deriving DecidableEq, Repr

/-- `Value` (src/BundleHdrEmitter.h 68-91): the state and the bytes written; `none`: it throws. -/
def emitValue (st : ESt) (v : Bytes) : Option (ESt × Bytes) :=
  match st with
  | .key => some (.value, v ++ [58, 32])
  | .value => some (.key, v ++ [10])
  | .listStart => some (.list, v)
  | .list => some (.list, 124 :: v)
  | _ => none

/-- "bundle.version: 0.0\n" (src/BundleHdrEmitter.cc 33) -/
def versionLine : Bytes := versionKey ++ [58, 32, 48, 46, 48, 10]

/-- An integer printed by `oss <<` (src/BundleHdrEmitter.cc 94-104). -/
def intText (i : Int) : Bytes := if i < 0 then 45 :: natDec i.natAbs else natDec i.natAbs

/-- A call of the emitter (src/BundleHdrEmitter.cc 29-114).  `ff`: the text of a double
(`setprecision(numeric_precision)`, `showpoint`). -/
def emit (ff : UInt64 → Bytes) (st : ESt) : Call → Option (ESt × Bytes)
  | .beginDoc => if st = .start then some (.begin, versionLine) else none           -- 29-35
  | .endDoc => if st = .stop then none else some (.stop, [])                        -- 37-43
  | .beginMap _ =>                                                                  -- 45-53
    match st with
    | .start => some (.key, versionLine)
    | .begin => some (.key, [])
    | _ => none
  | .endMap => if st = .key then some (.end, []) else none                          -- 55-60
  | .beginList _ => if st = .value then some (.listStart, []) else none             -- 62-67
  | .endList => if st = .list ∨ st = .listStart then some (.key, [124, 10]) else none  -- 69-75
  | .null => emitValue st []                                                        -- 78-80
  | .bool b => emitValue st [if b then 49 else 48]                                  -- 82-88
  | .str s => emitValue st (cstr s)                                                 -- 90-92
  | .int i => emitValue st (intText i.toInt)                                        -- 94-98
  | .uint u => emitValue st (natDec u.toNat)                                        -- 100-104
  | .flt d => emitValue st (ff d)                                                   -- 106-110
  | .blob _ => none                                                                 -- 112-114

/-- A sequence of calls: the state and everything written. -/
def emits (ff : UInt64 → Bytes) : ESt → List Call → Option (ESt × Bytes)
  | st, [] => some (st, [])
  | st, c :: cs =>
    match emit ff st c with
    | none => none
    | some (st, o) => (emits ff st cs).map fun (st, o') => (st, o ++ o')

/-- `Serialize` (src/VariantEmitting.cc 68-73, 89-95): the value's calls, then `Close`, which ends the document
(src/BundleHdrEmitter.cc 118-123).  `none`: it throws. -/
def serialize (ff : UInt64 → Bytes) (v : Val) : Option Bytes :=
  (emits ff .start ((Event.valTree v).calls ++ [.endDoc])).map (·.2)

/-! ## Guessing the format -/

/-- The formats `GuessFormat` answers with YAML compiled in (src/GuessFormat.cc). -/
inductive Format where
  | xml | yaml
  deriving DecidableEq, Repr

/-- What `GuessFormat` comes to: an answer, an exception, or a read outside the bytes it was given. -/
inductive Guessed where
  | format (f : Format) | threw | readsOutside
  deriving DecidableEq, Repr

/-- The loop (src/GuessFormat.cc 20-52) at position `i` of the bytes `v` given out last; XML and YAML compiled in. -/
def guessLoop {σ : Type} (I : Input σ) : Nat → σ → Bytes → Nat → Option (σ × Guessed)
  | 0, _, _, _ => none
  | fuel + 1, s, v, i =>
    let look (s : σ) (v : Bytes) : Option (σ × Guessed) :=
      match v[i]? with
      | none => some (s, .readsOutside)
      | some c =>
        if isSpace c = false then some (s, .format (if c = 60 then .xml else .yaml))
        else guessLoop I fuel s v (i + 1)
    if i ≥ v.length then                                                            -- 22-31
      match I.get s (i + 1) with
      | none => none
      | some (s, []) => some (s, .threw)
      | some (s, b :: w) => look s (b :: w)
    else look s v

/-- `GuessFormat` (src/GuessFormat.cc 9-53). -/
def guessFormat {σ : Type} (I : Input σ) (fuel : Nat) (s : σ) : Option (σ × Guessed) :=
  match I.get s 0 with
  | none => none
  | some (s, []) => some (s, .format .yaml)                                         -- 12-15
  | some (s, b :: w) => guessLoop I fuel s (b :: w) 0

end Verif.Bundle
