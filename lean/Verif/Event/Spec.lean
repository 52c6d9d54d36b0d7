import Verif.Event.Model
/-!
# Specification for recorded events

A value as the user describes it to an emitter: containers carry the length the user announced
(negative when unknown), which need not be right.
-/

namespace Verif.Event

/-- A scalar. -/
inductive Atom where
  | null | bool (b : Bool) | str (s : Bytes) | int (i : Int64) | uint (u : UInt64)
  | flt (bits : UInt64) | blob (segs : List Bytes)
  deriving Repr, DecidableEq

/-- A value with announced lengths; a map is a list of pairs. -/
inductive Tree where
  | atom (a : Atom)
  | list (announced : Int) (xs : List Tree)
  | map (announced : Int) (kvs : List (Tree × Tree))
  deriving Repr

/-- The emitter call for a scalar. -/
def Atom.call : Atom → Call
  | .null => .null | .bool b => .bool b | .str s => .str s | .int i => .int i | .uint u => .uint u
  | .flt d => .flt d | .blob s => .blob s

/-- The same scalar: a string up to its first NUL, a blob as one buffer with its bytes. -/
def Atom.plain : Atom → Atom
  | .str s => .str (s.takeWhile (· ≠ 0))
  | .blob s => .blob [s.flatten]
  | a => a

mutual
/-- The calls a user makes for a value, with the lengths the user announces. -/
def Tree.calls : Tree → List Call
  | .atom a => [a.call]
  | .list n xs => .beginList n :: (callsList xs ++ [.endList])
  | .map n kvs => .beginMap n :: (callsPairs kvs ++ [.endMap])
def callsList : List Tree → List Call
  | [] => []
  | x :: xs => x.calls ++ callsList xs
def callsPairs : List (Tree × Tree) → List Call
  | [] => []
  | (k, x) :: m => k.calls ++ x.calls ++ callsPairs m
end

mutual
/-- The same calls with every container announced with its exact number of elements or pairs. -/
def Tree.exact : Tree → List Call
  | .atom a => [a.plain.call]
  | .list _ xs => .beginList xs.length :: (exactList xs ++ [.endList])
  | .map _ kvs => .beginMap kvs.length :: (exactPairs kvs ++ [.endMap])
def exactList : List Tree → List Call
  | [] => []
  | x :: xs => x.exact ++ exactList xs
def exactPairs : List (Tree × Tree) → List Call
  | [] => []
  | (k, x) :: m => k.exact ++ x.exact ++ exactPairs m
end

mutual
/-- Every container has fewer than 2^31 elements (they are announced with an `int`). -/
def Tree.Small : Tree → Prop
  | .atom _ => True
  | .list _ xs => xs.length < 2 ^ 31 ∧ SmallList xs
  | .map _ kvs => kvs.length < 2 ^ 31 ∧ SmallPairs kvs
def SmallList : List Tree → Prop
  | [] => True
  | x :: xs => x.Small ∧ SmallList xs
def SmallPairs : List (Tree × Tree) → Prop
  | [] => True
  | (k, x) :: m => k.Small ∧ x.Small ∧ SmallPairs m
end

mutual
/-- Every announced length is either unknown (negative) or right. -/
def Tree.Honest : Tree → Prop
  | .atom _ => True
  | .list n xs => (n < 0 ∨ n = xs.length) ∧ HonestList xs
  | .map n kvs => (n < 0 ∨ n = kvs.length) ∧ HonestPairs kvs
def HonestList : List Tree → Prop
  | [] => True
  | x :: xs => x.Honest ∧ HonestList xs
def HonestPairs : List (Tree × Tree) → Prop
  | [] => True
  | (k, x) :: m => k.Honest ∧ x.Honest ∧ HonestPairs m
end

/-- The MessagePack object for a scalar. -/
def Atom.packed : Atom → Pk
  | .null => .nil | .bool b => .bool b | .str s => .string (s.takeWhile (· ≠ 0)) | .int i => .int64 i
  | .uint u => .uint64 u | .flt d => .double d
  | .blob s => .raw ((s.flatten.length + 5) % 2 ^ 32) (0 :: 0x42 :: 0x4C :: 0x4F :: 0x42 :: s.flatten)

mutual
/-- The MessagePack encoding of a value: each container is a header with its exact number of
elements or pairs, followed by the contents in order. -/
def Tree.packed : Tree → List Pk
  | .atom a => [a.packed]
  | .list _ xs => .array xs.length :: packedList xs
  | .map _ kvs => .map kvs.length :: packedPairs kvs
def packedList : List Tree → List Pk
  | [] => []
  | x :: xs => x.packed ++ packedList xs
def packedPairs : List (Tree × Tree) → List Pk
  | [] => []
  | (k, x) :: m => k.packed ++ x.packed ++ packedPairs m
end

end Verif.Event
