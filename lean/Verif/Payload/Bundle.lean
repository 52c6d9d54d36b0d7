import Verif.Payload.Model
import Verif.Bundle.Model
import Verif.Path.Model
/-!
# Bundles with a payload: `SerializeBundle` and `DeserializeBundle` (include/Variant/Payload.h 90-129, src/Payload.cc)

The header is a bundle header, read through a `ProxyInput` that ends at the first NUL.
-/

namespace Verif.PBundle
open Verif Verif.JsonDrv Verif.Event
open Verif.Bundle (Input St BEv)
open Verif.Payload (Opts findPayload findLength payloadCalls padLen)

/-- "payload.data" (include/Variant/Payload.h 45) -/
def dataKey : Bytes := [112, 97, 121, 108, 111, 97, 100, 46, 100, 97, 116, 97]

/-- "payload.length" (include/Variant/Payload.h 40) -/
def lengthKey : Bytes := [112, 97, 121, 108, 111, 97, 100, 46, 108, 101, 110, 103, 116, 104]

/-- The paths used for bundles when no parameters are given (src/Payload.cc 140-142, 236-238): both texts are a path of
one key. -/
def opts : Opts where
  dataPath := [.key dataKey]
  lengthPath := [.key lengthKey]

/-! ## Writing -/

/-- `SerializeWithPayload` with `SERIALIZE_BUNDLEHDR` (src/Payload.cc 132-195) on an output that has taken `before`
bytes and takes every block whole: what is written.  `ff`: the text of a double. -/
def writeBundle (num : Bytes → Option UInt64) (ff : UInt64 → Bytes) (o : Opts) (before : Nat) (v : Val) : Out Bytes :=
  if v.ty ≠ .map then .throw .runtime                                                 -- 134-136
  else do
    let blob ← findPayload v o                                                        -- 151-153
    let n ← findLength num v o blob                                                   -- 149-158
    let calls ← payloadCalls num n v (some o.lengthPath) (some o.dataPath)
    match Bundle.emits ff .start (.beginDoc :: calls ++ [.endDoc]) with               -- 168-171
    | none => .throw .runtime
    | some (_, t) =>
      .ok (t ++ List.replicate (padLen (before + t.length)) 10 ++ [0] ++              -- 174-180
        if hasPath v o.dataPath ∧ ¬ o.ignorePayload then blob.flatten else [])        -- 182-194

/-! ## Reading -/

/-- `ProxyInput` (src/Payload.cc 197-230) over an input, with `scanned_to`.  `peek s i`: the byte at position `i` of
the memory shown last, `none` if there is no such byte: then the read in line 219 is outside its memory and nothing is
said about what happens. -/
def proxy {σ : Type} (I : Input σ) (peek : σ → Nat → Option UInt8) : Input (σ × Nat) where
  get p len :=
    match I.get p.1 len with
    | none => none
    | some (s, []) => some ((s, p.2), [])
    | some (s, b :: v) =>
      match peek s p.2 with
      | none => none
      | some c =>
        let scanned := if c ≠ 0 then p.2 + (((b :: v).drop p.2).takeWhile (· ≠ 0)).length else p.2
        some ((s, scanned), (b :: v).take scanned)
  release p len :=
    match I.release p.1 len with
    | none => none
    | some s => some (s, p.2 - len)

/-- Memory behind a `ParserMemoryInput`: the caller's bytes. -/
def peekMemory (s : Bytes) (i : Nat) : Option UInt8 := s[i]?

/-- Memory behind a `ParserStreamInput`: its buffer from `offset` on (src/ParserInput.cc 74). -/
def peekStream (s : IO.SIn) (i : Nat) : Option UInt8 := s.buf[s.offset + i]?

/-- `Run` (src/BundleHdrParser.cc 81-178) until it stops: where the input is then, and everything told to the
handler. -/
def runTo {σ : Type} (I : Input σ) (lineFuel : Nat) : Nat → σ → St → Option (σ × List BEv)
  | 0, _, _ => none
  | fuel + 1, s, st =>
    if st = .stop then some (s, [])
    else
      match Bundle.step I lineFuel s st with
      | none => none
      | some (s, st, es) => (runTo I lineFuel fuel s st).map fun r => (r.1, es ++ r.2)

/-- `ParseVariant` with a bundle header parser (src/VariantParsing.cc 208-214; src/Payload.cc 244-246). -/
def readHeader {σ : Type} (fo : FloatOps) (stale : Nat → Bool) (I : Input σ) (fuel : Nat) (s : σ) :
    Option (σ × Out Val) :=
  match runTo I fuel fuel s .start with
  | none => none
  | some (s, es) => some (s, do
    let b ← Build.events fo.fltText Build.BState.init (Bundle.pevs fo stale es)
    return b.result)

/-- The loop up to and including a NUL (src/Payload.cc 249-262). -/
def skipTo {σ : Type} (I : Input σ) : Nat → σ → Option σ
  | 0, _ => none
  | fuel + 1, s =>
    match I.get s 1 with
    | none => none
    | some (s, []) => some s
    | some (s, b :: v) =>
      if 0 ∈ b :: v then I.release s (((b :: v).takeWhile (· ≠ 0)).length + 1)
      else
        match I.release s (b :: v).length with
        | none => none
        | some s => skipTo I fuel s

/-- `DeserializeWithPayload` with `SERIALIZE_BUNDLEHDR` (src/Payload.cc 232-286): the value and where the input is.
The payload is copied (`be_safe`).  `none`: does not end within `fuel` rounds, reads outside the input's memory, or
the input throws. -/
def readBundle {σ : Type} (num : Bytes → Option UInt64) (fo : FloatOps) (stale : Nat → Bool) (I : Input σ)
    (peek : σ → Nat → Option UInt8) (fuel : Nat) (o : Opts) (s : σ) : Option (Out (Val × σ)) :=
  match readHeader fo stale (proxy I peek) fuel (s, 0) with
  | none => none
  | some (_, .throw e) => some (.throw e)
  | some (_, .ub) => some .ub
  | some (p, .ok ret) =>
    match skipTo I fuel p.1 with
    | none => none
    | some s =>
      match Payload.asUnsigned num (getPathDef ret o.lengthPath (.uint 0)) with                -- 264
      | .throw e => some (.throw e)
      | .ub => some .ub
      | .ok n =>
        if n.toNat > 0 then
          match I.get s (n.toNat % 2 ^ 32) with                                       -- 270-271
          | none => none
          | some (s, view) =>
            if view.length < n.toNat then some (.throw .runtime)                      -- 272-275
            else
              match I.release s (n.toNat % 2 ^ 32) with                               -- 282
              | none => none
              | some s =>
                match setPath ret o.dataPath (.blob [view.take (n.toNat % 2 ^ 32)]) with
                | (ret, none) => some (.ok (ret, s))
                | (_, some e) => some (.throw e)
        else some (.ok (ret, s))

end Verif.PBundle
