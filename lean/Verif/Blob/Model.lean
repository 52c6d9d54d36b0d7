import Verif.Base.Outcome
/-!
# Model of `src/Blob.cc`

`iov` entries are kept either as slab contents (`List Bytes`, for comparison) or as
(address, length) pairs over a byte memory (for copying).  Individual slab lengths are below
2^32 (`unsigned GetLength`).
-/

namespace Verif.Blob

/-- `memcmp` on two byte lists of equal length: the first difference decides, bytes compared
as unsigned. -/
def memcmp : Bytes → Bytes → Ordering
  | a :: as, b :: bs => if a < b then .lt else if b < a then .gt else memcmp as bs
  | _, _ => .eq

/-- `Blob::Compare` (src/Blob.cc 100-120).  `xs`/`ys` are the buffers from index `i`/`j` on,
`xo`/`yo` the offsets in the current buffers; the sign of the result as an `Ordering`. -/
def compareFrom (xs : List Bytes) (xo : Nat) (ys : List Bytes) (yo : Nat) : Ordering :=
  match xs, ys with
  | x :: xs', y :: ys' =>
    let len := min (x.length - xo) (y.length - yo)
    match memcmp ((x.drop xo).take len) ((y.drop yo).take len) with
    | .lt => .lt
    | .gt => .gt
    | .eq =>
      let xo' := xo + len
      let yo' := yo + len
      if xo' ≥ x.length then
        if yo' ≥ y.length then compareFrom xs' 0 ys' 0
        else compareFrom xs' 0 (y :: ys') yo'
      else
        if yo' ≥ y.length then compareFrom (x :: xs') xo' ys' 0
        else .eq -- unreachable: `len` exhausts one of the two buffers
  | _, _ => .eq
termination_by xs.length + ys.length

/-- `Blob::Compare` (src/Blob.cc 100-120). -/
def compare (a b : List Bytes) : Ordering := compareFrom a 0 b 0

/-- `Blob::GetTotalLength` (src/Blob.cc 92-98): 32-bit sum. -/
def totalLength (lens : List Nat) : Nat := lens.foldl (fun s l => (s + l) % 2 ^ 32) 0

/-! ## Copying, over a byte-addressed memory -/

/-- Memory contents. -/
abbrev Mem := Nat → UInt8

/-- One `struct iovec`: base address and length. -/
structure Iov where
  base : Nat
  len : Nat
  deriving DecidableEq, Repr

/-- The bytes a buffer holds. -/
def bytesAt (m : Mem) (v : Iov) : Bytes := (List.range v.len).map fun k => m (v.base + k)

/-- The contents of a blob: its buffers concatenated. -/
def contents (m : Mem) (iov : List Iov) : Bytes := (iov.map (bytesAt m)).flatten

/-- `memcpy` of `src` to address `dst` (the areas do not overlap here). -/
def memcpy (m : Mem) (dst : Nat) (src : Iov) : Mem :=
  fun a => if dst ≤ a ∧ a < dst + src.len then m (src.base + (a - dst)) else m a

/-- The copying loop of `Blob::CreateCopy` (src/Blob.cc 47-50) into an allocation of `cap`
bytes at `dst`; writing past the allocation is undefined behaviour. -/
def copyLoop (dst cap : Nat) (m : Mem) (copied : Nat) : List Iov → Out Mem
  | [] => .ok m
  | v :: vs =>
    if copied + v.len > cap then .ub
    else copyLoop dst cap (memcpy m (dst + copied) v) (copied + v.len) vs

/-- `Blob::CreateCopy` (src/Blob.cc 32-53); `dst` is the address returned by
`posix_memalign` for `len` bytes.  Returns the memory and the new blob's buffers. -/
def createCopy (m : Mem) (dst : Nat) (iov : List Iov) : Out (Mem × List Iov) := do
  let len := totalLength (iov.map (·.len))
  let m' ← copyLoop dst len m 0 iov
  return (m', [⟨dst, len⟩])

end Verif.Blob
