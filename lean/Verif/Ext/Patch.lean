import Verif.Ext.Pointer
import Verif.Build.Model
/-!
# JSON Patch and JSON Diff (src/Extensions.cc 586-795), on value trees

Simplification: values are trees, so a list or map that `copy` puts in a second place is a
separate value here; in the code the two places share their storage (see `Verif.Heap`).
-/

namespace Verif.Ext
open Verif

def kOp : Bytes := [0x6f, 0x70]                                   -- "op"
def kPath : Bytes := [0x70, 0x61, 0x74, 0x68]                     -- "path"
def kFrom : Bytes := [0x66, 0x72, 0x6f, 0x6d]                     -- "from"
def kValue : Bytes := [0x76, 0x61, 0x6c, 0x75, 0x65]              -- "value"
def wAdd : Bytes := [0x61, 0x64, 0x64]                            -- "add"
def wRemove : Bytes := [0x72, 0x65, 0x6d, 0x6f, 0x76, 0x65]       -- "remove"
def wReplace : Bytes := [0x72, 0x65, 0x70, 0x6c, 0x61, 0x63, 0x65] -- "replace"
def wMove : Bytes := [0x6d, 0x6f, 0x76, 0x65]                     -- "move"
def wCopy : Bytes := [0x63, 0x6f, 0x70, 0x79]                     -- "copy"
def wTest : Bytes := [0x74, 0x65, 0x73, 0x74]                     -- "test"

/-- `Patch_t` (src/Extensions.cc 586-592), as used for undoing. -/
inductive Undo where
  | add (path : VPath) (value : Val)
  | remove (path : VPath)

/-- The parent part of undoing an `add` (src/Extensions.cc 603-611): in a list the value is
inserted, in a map it is set.  A position that does not fit the value there throws; inserting
beyond the end is undefined. -/
def undoAdd (c : Val) (e : PathElem) (x : Val) : Val × Out Unit :=
  match c, e with
  | .list xs, .index i =>
    if i.toNat ≤ xs.length then (.list (xs.take i.toNat ++ x :: xs.drop i.toNat), .ok ()) else (.list xs, .ub)
  | .map m, .key k => (.map (AMap.set m k x), .ok ())
  | c, _ => (c, .throw .unexpectedType)

/-- One round of `JSONPatchUndo` (src/Extensions.cc 595-623). -/
def undoStep (v : Val) : Undo → Val × Out Unit
  | .add path x =>
    match path.getLast? with
    | none => (x, .ok ())
    | some e =>
      match getPath? v path.dropLast with
      | none => (v, .throw .invalidReference)
      | some c => let (c', o) := undoAdd c e x; (storeAt v path.dropLast c', o)
  | .remove path => ofWr (erasePath v path false)

/-- `JSONPatchUndo` (src/Extensions.cc 594-624); the last entry pushed comes first. -/
def undoAll (v : Val) : List Undo → Val × Out Unit
  | [] => (v, .ok ())
  | u :: us =>
    match undoStep v u with
    | (v', .ok _) => undoAll v' us
    | r => r

/-- Undo entry of an `add` (src/Extensions.cc 635-639). -/
def undoOf (r : PRes) : Undo :=
  match r.old with
  | some o => .add r.path o
  | none => .remove r.path

/-- What an operation leaves: the document, the undo entries in the order pushed, the result. -/
abbrev Done := Val × List Undo × Out Bool

/-- Read a field of the operation, or fail with the document as it is. -/
def reading {α : Type} (v : Val) (o : Out α) (f : α → Done) : Done :=
  match o with
  | .ok a => f a
  | .throw e => (v, [], .throw e)
  | .ub => (v, [], .ub)

/-- `diff.Get(k).AsString()`. -/
def textField (flt : UInt64 → Bytes) (d : Val) (k : Bytes) : Out Bytes :=
  match getElemC d (.key k) with
  | .ok x => Build.asString flt x
  | .throw e => .throw e
  | .ub => .ub

/-- The `add` step (src/Extensions.cc 632-640, also 657-665 and 671-679). -/
def addOp (p : Nat) (v : Val) (ptr : Bytes) (x : Val) : Done :=
  match pointerOp p v (.add x) ptr with
  | (v', .ok r) => (v', [undoOf r], .ok r.success)
  | (v', .throw e) => (v', [], .throw e)
  | (v', .ub) => (v', [], .ub)

/-- The `remove` step (src/Extensions.cc 642-645). -/
def removeOp (p : Nat) (v : Val) (ptr : Bytes) : Done :=
  match pointerOp p v .remove ptr with
  | (v', .ok r) => (v', [.add r.path r.value], .ok r.success)
  | (v', .throw e) => (v', [], .throw e)
  | (v', .ub) => (v', [], .ub)

/-- The `replace` step (src/Extensions.cc 647-655). -/
def replaceOp (p : Nat) (v : Val) (ptr : Bytes) (x : Out Val) : Done :=
  match pointerOp p v .get ptr with
  | (v', .ok r) => reading v' x fun x =>
    match ofWr (setPath v' r.path x) with
    | (v'', .ok _) => (v'', [.add r.path r.value], .ok r.success)
    | (v'', .throw e) => (v'', [], .throw e)
    | (v'', .ub) => (v'', [], .ub)
  | (v', .throw e) => (v', [], .throw e)
  | (v', .ub) => (v', [], .ub)

/-- The `move` step (src/Extensions.cc 657-670). -/
def moveOp (p : Nat) (v : Val) (src : Bytes) (dst : Out Bytes) : Done :=
  match pointerOp p v .remove src with
  | (v', .ok r) =>
    let (v'', us, o) := reading v' dst fun dst => addOp p v' dst r.value
    (v'', .add r.path r.value :: us, o)
  | (v', .throw e) => (v', [], .throw e)
  | (v', .ub) => (v', [], .ub)

/-- The `copy` step (src/Extensions.cc 671-684). -/
def copyOp (p : Nat) (v : Val) (src : Bytes) (dst : Out Bytes) : Done :=
  match pointerOp p v .get src with
  | (v', .ok r) => reading v' dst fun dst => addOp p v' dst r.value
  | (v', .throw e) => (v', [], .throw e)
  | (v', .ub) => (v', [], .ub)

/-- The `test` step (src/Extensions.cc 685-689). -/
def testOp (p : Nat) (v : Val) (ptr : Bytes) (x : Val) : Done :=
  match pointerOp p v (.test x) ptr with
  | (v', .ok r) => (v', [], .ok r.success)
  | (v', .throw e) => (v', [], .throw e)
  | (v', .ub) => (v', [], .ub)

/-- `JSONPatchOp` (src/Extensions.cc 627-696). -/
def patchOp (p : Nat) (flt : UInt64 → Bytes) (v d : Val) : Done :=
  reading v (textField flt d kOp) fun oper =>
  if oper = wAdd then
    reading v (textField flt d kPath) fun ptr => reading v (getElemC d (.key kValue)) fun x => addOp p v ptr x
  else if oper = wRemove then
    reading v (textField flt d kPath) fun ptr => removeOp p v ptr
  else if oper = wReplace then
    reading v (textField flt d kPath) fun ptr => replaceOp p v ptr (getElemC d (.key kValue))
  else if oper = wMove then
    reading v (textField flt d kFrom) fun src => moveOp p v src (textField flt d kPath)
  else if oper = wCopy then
    reading v (textField flt d kFrom) fun src => copyOp p v src (textField flt d kPath)
  else if oper = wTest then
    reading v (textField flt d kPath) fun ptr => reading v (getElemC d (.key kValue)) fun x => testOp p v ptr x
  else (v, [], .throw .runtime)

/-- The loop of `JSONPatch` (src/Extensions.cc 703-706); `us` is the undo deque, last entry first. -/
def patchLoop (p : Nat) (flt : UInt64 → Bytes) (v : Val) (us : List Undo) : List Val → Done
  | [] => (v, us, .ok true)
  | d :: ds =>
    match patchOp p flt v d with
    | (v', us', .ok true) => patchLoop p flt v' (us'.reverse ++ us) ds
    | (v', us', o) => (v', us'.reverse ++ us, o)

/-- The operations of a patch (src/Extensions.cc 702-709). -/
def patchOps : Val → List Val
  | .list ds => ds
  | d => [d]

/-- Undo and report failure (src/Extensions.cc 711-718).  Simplification: an exception from the
undoing ends it; in the code one that comes after a failed `test` is retried once. -/
def rollback (v : Val) (us : List Undo) : Val × Out Bool :=
  match undoAll v us with
  | (v', .ok _) => (v', .ok false)
  | (v', .throw e) => (v', .throw e)
  | (v', .ub) => (v', .ub)

/-- `JSONPatch` (src/Extensions.cc 698-720): the document and the first component of the pair. -/
def patch (p : Nat) (flt : UInt64 → Bytes) (v diff : Val) : Val × Out Bool :=
  match patchLoop p flt v [] (patchOps diff) with
  | (v', _, .ok true) => (v', .ok true)
  | (v', us, .ok false) => rollback v' us
  | (v', us, .throw _) => rollback v' us
  | (v', _, .ub) => (v', .ub)

/-! ## Diff -/

/-- The operations appended (src/Extensions.cc 724-728, 732-737, 741-746). -/
def opRemove (path : VPath) : Val := .map [(kOp, .str wRemove), (kPath, .str (formPointer path))]
def opAdd (path : VPath) (x : Val) : Val := .map [(kOp, .str wAdd), (kPath, .str (formPointer path)), (kValue, x)]
def opReplace (path : VPath) (x : Val) : Val :=
  .map [(kOp, .str wReplace), (kPath, .str (formPointer path)), (kValue, x)]

/-- The union of the keys in order (src/Extensions.cc 762-769): a sorted list, without repetition. -/
def insertKey (k : Bytes) : List Bytes → List Bytes
  | [] => [k]
  | k' :: ks => if k = k' then k' :: ks else if keyLt k k' then k :: k' :: ks else k' :: insertKey k ks

def unionKeys (ks : List Bytes) : List Bytes → List Bytes
  | [] => ks
  | k :: r => unionKeys (insertKey k ks) r

/-- The number of levels below a value. -/
def depth : Val → Nat
  | .list xs => depthList xs + 1
  | .map m => depthMap m + 1
  | _ => 1
where
  depthList : List Val → Nat
    | [] => 0
    | x :: xs => max (depth x) (depthList xs)
  depthMap : List (Bytes × Val) → Nat
    | [] => 0
    | x :: xs => max (depth x.2) (depthMap xs)

/-- `JSONDiffRef` (src/Extensions.cc 722-788), on what the two references refer to; `fuel` bounds
the depth, `jsonDiff` gives enough.  The index is stored in 32 bits by `PathElement`. -/
def diffRef (p : Nat) : Nat → Option Val → Option Val → VPath → List Val
  | 0, _, _, _ => []
  | _ + 1, _, none, path => [opRemove path]
  | _ + 1, none, some d, path => [opAdd path d]
  | fuel + 1, some s, some d, path =>
    if s.ty ≠ d.ty then [opReplace path d]
    else if veq p s d then []
    else match s, d with
      | .list xs, .list ys =>
        (List.range (max xs.length ys.length)).flatMap fun i =>
          diffRef p fuel xs[i]? ys[i]? (path ++ [.index (UInt32.ofNat i)])
      | .map m, .map n =>
        (unionKeys (unionKeys [] (n.map (·.1))) (m.map (·.1))).flatMap fun k =>
          diffRef p fuel (AMap.get m k) (AMap.get n k) (path ++ [.key k])
      | _, d => [opReplace path d]

/-- `JSONDiff` (src/Extensions.cc 790-795). -/
def jsonDiff (p : Nat) (src dst : Val) : Val := .list (diffRef p (depth src + 1) (some src) (some dst) [])

end Verif.Ext
