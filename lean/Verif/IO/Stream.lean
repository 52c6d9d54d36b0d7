import Verif.Base.Outcome
/-!
# Buffered stream input and fixed memory output

`ParserStreamInput` (src/ParserInput.cc 39-89, include/Variant/ParserInput.h 45-59): a buffer in
front of a stream.  `EmitterMemoryOutput` (src/EmitterOutput.cc 81-98): writing into a caller's
buffer.

`unsigned` is 32 bits; sizes are natural numbers and the one sum that is compared before anything
is known about it (`len + offset`) is taken modulo 2^32.
-/

namespace Verif.IO
open Verif

/-- `ParserStreamInput` and what is left to read of its stream. -/
structure SIn where
  buf : Bytes
  num : Nat
  offset : Nat
  eof : Bool
  rest : Bytes
  deriving DecidableEq, Repr

/-- The constructor (src/ParserInput.cc 39-46). -/
def SIn.init (bufLen : Nat) (content : Bytes) : SIn :=
  ⟨List.replicate bufLen 0, 0, 0, false, content⟩

/-- The bytes at `&buffer[offset]`. -/
def SIn.view (s : SIn) : Bytes := (s.buf.drop s.offset).take s.num

/-- How many bytes `Read(ptr, n)` delivers: as many as `rd` says, at most `n`, at most what is
left. -/
def readCount (rd : Nat → Bytes → Nat) (n : Nat) (rest : Bytes) : Nat :=
  min (min (rd n rest) n) rest.length

/-- One `Read` into the free end of the buffer (src/ParserInput.cc 67-70). -/
def readMore (rd : Nat → Bytes → Nat) (s : SIn) : SIn :=
  let toRead := s.buf.length - s.num - s.offset
  let k := readCount rd toRead s.rest
  let pos := s.num + s.offset
  { buf := s.buf.take pos ++ s.rest.take k ++ s.buf.drop (pos + k)
    num := s.num + k
    offset := s.offset
    eof := decide (k < toRead)
    rest := s.rest.drop k }

theorem readMore_decreases (rd : Nat → Bytes → Nat) (s : SIn)
    (h : s.buf.length - s.num - s.offset ≠ 0) (he : ¬ (readMore rd s).eof = true) :
    (readMore rd s).buf.length - (readMore rd s).num - (readMore rd s).offset
      < s.buf.length - s.num - s.offset := by
  simp only [readMore, decide_eq_true_eq, Nat.not_lt] at he
  have hk : readCount rd (s.buf.length - s.num - s.offset) s.rest ≤ s.rest.length := by
    simp only [readCount]; omega
  simp only [readMore, List.length_append, List.length_take, List.length_drop]
  omega

/-- The loop (src/ParserInput.cc 66-71).  With no free space nothing changes any more: `none`
means that it does not end. -/
def fill (rd : Nat → Bytes → Nat) (len : Nat) (s : SIn) : Option SIn :=
  if s.eof = false ∧ (s.num < len ∨ s.num = 0) then
    if h : s.buf.length - s.num - s.offset = 0 then none
    else
      let s' := readMore rd s
      if he : s'.eof = true then some s' else fill rd len s'
  else some s
termination_by s.buf.length - s.num - s.offset
decreasing_by exact readMore_decreases rd s h he

/-- Making room (src/ParserInput.cc 58-65). -/
def makeRoom (len : Nat) (s : SIn) : SIn :=
  if (len + s.offset) % 2 ^ 32 > s.buf.length then
    if len > s.buf.length then
      { s with buf := s.view ++ List.replicate (len - s.num) 0, offset := 0 }
    else
      { s with buf := s.view ++ s.buf.drop s.num, offset := 0 }
  else s

/-- `GetPtr` (src/ParserInput.cc 48-75): the new state and the bytes given out (none: null). -/
def getPtr (rd : Nat → Bytes → Nat) (s : SIn) (len : Nat) : Option (SIn × Bytes) :=
  if s.eof then some (s, s.view)
  else if len ≤ s.num ∧ s.num > 0 then some (s, s.view)
  else match fill rd len (makeRoom len s) with
    | none => none
    | some s' => some (s', s'.view)

/-- `Release` (src/ParserInput.cc 77-89); `none`: it throws. -/
def release (s : SIn) (len : Nat) : Option SIn :=
  if len > s.num then none
  else if len = s.num then some { s with num := 0, offset := 0 }
  else some { s with offset := s.offset + len, num := s.num - len }

/-- A use of the input. -/
inductive Op where
  | get (len : Nat)
  | release (len : Nat)
  deriving DecidableEq, Repr

/-- What came of it. -/
inductive Res where
  | bytes (v : Bytes)
  | ok
  | threw
  deriving DecidableEq, Repr

/-- Run a sequence of uses; `none` if one does not return. -/
def runOps (rd : Nat → Bytes → Nat) (s : SIn) : List Op → Option (List (Op × Res))
  | [] => some []
  | .get n :: ops => match getPtr rd s n with
    | none => none
    | some (s', v) => (runOps rd s' ops).map ((.get n, .bytes v) :: ·)
  | .release n :: ops => match release s n with
    | none => (runOps rd s ops).map ((.release n, .threw) :: ·)
    | some s' => (runOps rd s' ops).map ((.release n, .ok) :: ·)

/-! ## Fixed memory output -/

/-- `EmitterMemoryOutput` with a caller-supplied length counter. -/
structure MemOut where
  mem : Bytes          -- the `length` bytes at `data_ptr`
  used : Nat           -- `*out_length`
  deriving DecidableEq, Repr

/-- `Write` (src/EmitterOutput.cc 90-97).  The sum is an `unsigned` sum; storing outside the
buffer is undefined behaviour. -/
def MemOut.write (o : MemOut) (d : Bytes) : Out MemOut :=
  if (o.used + d.length) % 2 ^ 32 > o.mem.length then .throw .runtime
  else if o.used + d.length > o.mem.length then .ub
  else .ok { mem := o.mem.take o.used ++ d ++ o.mem.drop (o.used + d.length)
             used := o.used + d.length }

/-- Writes one after the other; a write that throws leaves the output as it was. -/
def MemOut.writes (o : MemOut) : List Bytes → Out MemOut
  | [] => .ok o
  | d :: ds => match o.write d with
    | .ok o' => o'.writes ds
    | .throw _ => o.writes ds
    | .ub => .ub

end Verif.IO
