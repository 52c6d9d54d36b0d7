import Verif.Json.Emit
/-!
# Outputs that fail (include/Variant/EmitterOutput.h, src/EmitterOutput.cc 33-99)

What the emitters do with an output that takes only part of what is offered, nothing, or throws, up to any moment at which the
program may be stopped.

An output is given by its answers.  What it has taken need not be safe: `fwrite` and `sputn` put bytes in a buffer, and later calls
move them to the file.  Simplified: lengths are numbers without a limit.
-/

namespace Verif.Sink
open Verif JsonEmit

/-- How an output answers.  Arguments: the number of calls still to come before the program is stopped, how many bytes it has taken
so far, and how many of these are safe. -/
structure Dev where
  /-- The answer to `Write` of a number of bytes: how many are taken (never more than offered), and how many of those held back become
  safe; `none`: it throws. -/
  write : Nat → Nat → Nat → Nat → Option (Nat × Nat)
  /-- The answer to `Flush`: how many of those held back become safe.  `fflush` and `pubsync` return errors that are not looked at
  (src/EmitterOutput.cc 47-49, 77-79). -/
  flush : Nat → Nat → Nat → Nat

/-- How far a run has come. -/
inductive Status where
  /-- Everything asked for was done. -/
  | done
  /-- An exception is on its way to the caller. -/
  | threw
  /-- Stopped inside a call. -/
  | stopped
  deriving DecidableEq, Repr

/-- An output. -/
structure Sink where
  /-- What it has taken. -/
  got : Bytes
  /-- How much of this is safe. -/
  safe : Nat
  /-- How many calls are made before the program is stopped. -/
  left : Nat
  st : Status
  deriving Repr

/-- A new output. -/
def Sink.new (calls : Nat) : Sink := ⟨[], 0, calls, .done⟩

/-- What is in the file. -/
def Sink.file (s : Sink) : Bytes := s.got.take s.safe

/-- One `Write` (src/EmitterOutput.cc 41-45, 71-75, 89-96) and the number of bytes taken.  Nothing is called after the end of a run. -/
def Sink.write (d : Dev) (s : Sink) (b : Bytes) : Sink × Nat :=
  match s.st, s.left with
  | .done, 0 => ({ s with st := .stopped }, 0)
  | .done, l + 1 =>
    match d.write l s.got.length s.safe b.length with
    | none => ({ s with left := l, st := .threw }, 0)
    | some (n, k) => (⟨s.got ++ b.take n, s.safe + k, l, .done⟩, min n b.length)
  | _, _ => (s, 0)

/-- One `Flush` (src/EmitterOutput.cc 47-49, 77-79, include/Variant/EmitterOutput.h 37). -/
def Sink.flush (d : Dev) (s : Sink) : Sink :=
  match s.st, s.left with
  | .done, 0 => { s with st := .stopped }
  | .done, l + 1 => { s with safe := s.safe + d.flush l s.got.length s.safe, left := l }
  | _, _ => s

/-- The loop `while (num_written < len) num_written += output->Write(...)`, each block at most `cap` long (src/JSONEmitter.cc 155-157,
231-233, 285-287, src/BundleHdrEmitter.h 97-102, src/Payload.cc 178-180). -/
def writeLoop (d : Dev) (cap : Nat) (s : Sink) (b : Bytes) : Sink :=
  if b.isEmpty then s
  else match h : (s.write d (b.take cap)).1.st with
    | .done => writeLoop d cap (s.write d (b.take cap)).1 (b.drop (s.write d (b.take cap)).2)
    | _ => (s.write d (b.take cap)).1
termination_by s.left
decreasing_by
  revert h
  unfold Sink.write
  split
  · simp
  · next h2 =>
    split
    · simp
    · simp [h2]
  · next h1 h2 h3 =>
    intro h
    cases hl : s.left with
    | zero => exact absurd hl (h2 h)
    | succ l => exact absurd hl (h3 l h)

/-- The buffer of the JSON emitter and its output. -/
structure JMach where
  buf : Bytes
  sink : Sink

/-- `Flush` (src/JSONEmitter.cc 152-161).  If `Write` throws the buffer stays as it is; nothing is done with it any more here. -/
def jflush (d : Dev) (m : JMach) : JMach := ⟨[], (writeLoop d m.buf.length m.sink m.buf).flush d⟩

/-- `EmitRaw` (src/JSONEmitter.cc 281-295) and the blanks of `EmitIndent` (226-240). -/
def jchunk (d : Dev) (m : JMach) : Chunk → JMach
  | .flush => jflush d m
  | .raw b =>
    if b.length > 128 then { jflush d m with sink := writeLoop d b.length (jflush d m).sink b }
    else
      let m := if b.length + m.buf.length > 512 then jflush d m else m
      { m with buf := m.buf ++ b }
  | .spaces n =>
    if n > 128 then { jflush d m with sink := writeLoop d 128 (jflush d m).sink (List.replicate n 32) }
    else
      let m := if n + m.buf.length > 512 then jflush d m else m
      { m with buf := m.buf ++ List.replicate n 32 }

/-- All pieces, then `Close` (src/JSONEmitter.cc 163-165). -/
def jrun (d : Dev) (calls : Nat) (cs : List Chunk) : Sink := (jflush d (cs.foldl (jchunk d) ⟨[], .new calls⟩)).sink

/-- Writing without looking at the answer: the packer of MessagePack (src/MsgPackEmitter.cc 16-18; the functions of the library return
what this returns, and the emitter ignores it, 38-124), then `Close` (130-132). -/
def onceRun (d : Dev) (calls : Nat) (bs : List Bytes) : Sink :=
  (bs.foldl (fun (s : Sink) b => (s.write d b).1) (Sink.new calls)).flush d

/-- `EmitterFileOutput` on a file with room for `room` bytes, for documents that fit the buffer of the stream: all is taken, and
`fflush` moves what there is room for. -/
def fullDisk (room : Nat) : Dev := ⟨fun _ _ _ n => some (n, 0), fun _ g s => min g room - s⟩

/-- An output that never takes anything any more once it has taken `room` bytes. -/
def fullStream (room : Nat) : Dev := ⟨fun _ g _ n => some (min n (room - g), min n (room - g)), fun _ _ _ => 0⟩

/-- `EmitterMemoryOutput` of `len` bytes (src/EmitterOutput.cc 81-97). -/
def memory (len : Nat) : Dev := ⟨fun _ g _ n => if g + n > len then none else some (n, n), fun _ _ _ => 0⟩

end Verif.Sink
