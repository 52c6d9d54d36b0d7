import Verif.Val.Compare
import Verif.Val.Ops
import Verif.Build.Model
/-!
# JSON Pointer operations (src/Extensions.cc 281-572)

Modelled on value trees.  The pointer text is cut into its components first; the code cuts off
one component per recursive call.  `Operation_t::guess` is never set, so the branches it
guards (372-380) are not modelled.
-/

namespace Verif.Ext
open Verif

/-- `JSONPointerUnescape` (src/Extensions.cc 281-308). -/
def unescape : Bytes → Bytes
  | [] => []
  | c :: r =>
    if c = 0x7e then                                  -- '~'
      match r with
      | [] => []
      | d :: r' =>
        if d = 0x30 then 0x7e :: unescape r'          -- "~0"
        else if d = 0x31 then 0x2f :: unescape r'     -- "~1"
        else 0x7e :: d :: unescape r'
    else c :: unescape r

/-- Cut at every `/` (src/Extensions.cc 369-371, repeated by the recursive calls): the text before
the first one and the texts after each. -/
def cut : Bytes → Bytes × List Bytes
  | [] => ([], [])
  | c :: r =>
    let (a, b) := cut r
    if c = 0x2f then ([], a :: b) else (c :: a, b)

/-- The components of a pointer (src/Extensions.cc 344, 366-370); `none` if it does not start with
`/`. -/
def components (p : Bytes) : Option (List Bytes) :=
  match p with
  | [] => some []
  | p => if (cut p).1 = [] then some ((cut p).2.map unescape) else none

/-- The optional sign `strtoull` accepts: whether it is a minus, and the rest. -/
def sign : Bytes → Bool × Bytes
  | [] => (false, [])
  | c :: r => if c = 0x2d then (true, r) else if c = 0x2b then (false, r) else (false, c :: r)

/-- The value `strtoull` returns for a number: overflow gives the largest value, a minus sign
negates modulo 2^64. -/
def signed64 (neg : Bool) (n : Nat) : Nat :=
  if n ≥ 2 ^ 64 then 2 ^ 64 - 1 else if neg then (2 ^ 64 - n) % 2 ^ 64 else n

/-- `strtoull(s, &e, 10)` of the C library on a text without NUL: the value and the rest; `none`
if nothing was read. -/
def strtoull (s : Bytes) : Option (Nat × Bytes) :=
  let sg := sign (s.dropWhile isSpace)
  let d := spanDigits sg.2
  if d.1 = [] then none else some (signed64 sg.1 (decVal 0 d.1), d.2)

/-- `IsIndex` (src/Extensions.cc 332-341): works on the text up to the first NUL. -/
def isIndex (t : Bytes) : Option Nat :=
  match strtoull (t.takeWhile (· ≠ 0)) with
  | none => none
  | some (n, r) => if r.dropWhile isSpace = [] then some n else none

/-- The operation (src/Extensions.cc 310-315) with the value given to it. -/
inductive POp where
  | add (x : Val)
  | remove
  | test (x : Val)
  | get

/-- The fields of `Operation_t` (src/Extensions.cc 317-330) the operation sets: the path, the value
(also that of `remove` and `get`), what was replaced, and success. -/
structure PRes where
  path : VPath
  value : Val
  old : Option Val
  success : Bool

/-- `JSONPointerOp` with an empty pointer, at the document itself (src/Extensions.cc 344-365). -/
def opRoot (p : Nat) (v : Val) : POp → Val × Out PRes
  | .add x => (x, .ok ⟨[], x, some v, true⟩)
  | .remove => (.null, .ok ⟨[], v, none, true⟩)
  | .test x => (v, .ok ⟨[], x, none, veq p v x⟩)
  | .get => (v, .ok ⟨[], v, none, true⟩)

/-- The last component, on a map (src/Extensions.cc 385-411). -/
def opMap (p : Nat) (m : List (Bytes × Val)) (t : Bytes) : POp → Val × Out PRes
  | .add x => (.map (AMap.set m t x), .ok ⟨[.key t], x, AMap.get m t, true⟩)
  | .remove => match AMap.get m t with
    | some c => (.map (AMap.erase m t), .ok ⟨[.key t], c, none, true⟩)
    | none => (.map m, .throw .key)
  | .test x => match AMap.get m t with
    | some c => (.map m, .ok ⟨[.key t], x, none, veq p c x⟩)
    | none => (.map m, .throw .key)
  | .get => match AMap.get m t with
    | some c => (.map m, .ok ⟨[.key t], c, none, true⟩)
    | none => (.map m, .throw .key)

/-- The last component, an index, on a list (src/Extensions.cc 431-461).  `Contains`, `Get`, `At`
and the path take the index modulo 2^32, the insertion the whole index; inserting beyond the
end is undefined.  `remove` looks the index up as a key, which throws. -/
def opIndex (p : Nat) (xs : List Val) (n : Nat) : POp → Val × Out PRes
  | .add x =>
    if n ≤ xs.length then
      (.list (xs.take n ++ x :: xs.drop n), .ok ⟨[.index (UInt32.ofNat n)], x, xs[n % 2 ^ 32]?, true⟩)
    else (.list xs, .ub)
  | .remove => (.list xs, .throw .unexpectedType)
  | .test x => match xs[n % 2 ^ 32]? with
    | some c => (.list xs, .ok ⟨[.index (UInt32.ofNat n)], x, none, veq p c x⟩)
    | none => (.list xs, .throw .outOfRange)
  | .get => match xs[n % 2 ^ 32]? with
    | some c => (.list xs, .ok ⟨[.index (UInt32.ofNat n)], c, none, true⟩)
    | none => (.list xs, .throw .outOfRange)

/-- The last component on a list (src/Extensions.cc 416-461). -/
def opList (p : Nat) (xs : List Val) (t : Bytes) (op : POp) : Val × Out PRes :=
  if t = [0x2d] then                                  -- "-"
    match op with
    | .add x => (.list (xs ++ [x]), .ok ⟨[.index (UInt32.ofNat xs.length)], x, none, true⟩)
    | _ => (.list xs, .throw .runtime)
  else match isIndex t with
    | none => (.list xs, .throw .runtime)
    | some n => opIndex p xs n op

/-- The last component (src/Extensions.cc 383-471). -/
def opLast (p : Nat) (v : Val) (t : Bytes) (op : POp) : Val × Out PRes :=
  match v with
  | .map m => opMap p m t op
  | .list xs => opList p xs t op
  | v => (v, .throw .runtime)

/-- The element a component that is not the last leads to (src/Extensions.cc 383, 412-414, 425-428,
462-464, and 371-382 of the recursive call, which throws if there is none). -/
def childElem (v : Val) (t : Bytes) : Option PathElem :=
  match v with
  | .map _ => some (.key t)
  | .list _ => (isIndex t).map fun n => .index (UInt32.ofNat n)
  | _ => none

/-- `JSONPointerOp` (src/Extensions.cc 343-472) on the components. -/
def opTokens (p : Nat) (v : Val) (op : POp) : List Bytes → Val × Out PRes
  | [] => opRoot p v op
  | [t] => opLast p v t op
  | t :: t' :: ts =>
    match childElem v t with
    | none => (v, .throw .runtime)
    | some e => match getElem? v e with
      | none => (v, .throw .runtime)
      | some c =>
        let (c', o) := opTokens p c op (t' :: ts)
        (putElem v e c', (fun r : PRes => { r with path := e :: r.path }) <$> o)

/-- `JSONPointerOp` (src/Extensions.cc 343-472). -/
def pointerOp (p : Nat) (v : Val) (op : POp) (ptr : Bytes) : Val × Out PRes :=
  match components ptr with
  | none => (v, .throw .runtime)
  | some ts => opTokens p v op ts

/-- Every exception is rethrown as a `runtime_error` (src/Extensions.cc 479-485 and the like). -/
def wrap {α : Type} : Out α → Out α
  | .throw _ => .throw .runtime
  | o => o

/-- `JSONPointerAdd` (src/Extensions.cc 474-486). -/
def pointerAdd (p : Nat) (v : Val) (ptr : Bytes) (x : Val) : Val × Out Unit :=
  let (v', o) := pointerOp p v (.add x) ptr
  (v', wrap ((fun _ => ()) <$> o))

/-- `JSONPointerRemove` (src/Extensions.cc 488-499). -/
def pointerRemove (p : Nat) (v : Val) (ptr : Bytes) : Val × Out Unit :=
  let (v', o) := pointerOp p v .remove ptr
  (v', wrap ((fun _ => ()) <$> o))

/-- The outcome of `SetPath`. -/
def ofWr (w : Wr) : Val × Out Unit :=
  match w with
  | (v, none) => (v, .ok ())
  | (v, some e) => (v, .throw e)

/-- `JSONPointerReplace` (src/Extensions.cc 501-516); the reference `get` returns exists, it has
just been read. -/
def pointerReplace (p : Nat) (v : Val) (ptr : Bytes) (x : Val) : Val × Out Unit :=
  match pointerOp p v .get ptr with
  | (v', .ok r) => let (v'', o) := ofWr (setPath v' r.path x); (v'', wrap o)
  | (v', .throw _) => (v', .throw .runtime)
  | (v', .ub) => (v', .ub)

/-- `JSONPointerMove` (src/Extensions.cc 518-539): when the second half fails the value is put
back with `SetPath`. -/
def pointerMove (p : Nat) (v : Val) (src dst : Bytes) : Val × Out Unit :=
  match pointerOp p v .remove src with
  | (v', .ok r) =>
    match pointerOp p v' (.add r.value) dst with
    | (v'', .ok _) => (v'', .ok ())
    | (v'', .throw _) => ((setPath v'' r.path r.value).1, .throw .runtime)
    | (v'', .ub) => (v'', .ub)
  | (v', .throw _) => (v', .throw .runtime)
  | (v', .ub) => (v', .ub)

/-- `JSONPointerCopy` (src/Extensions.cc 541-559). -/
def pointerCopy (p : Nat) (v : Val) (src dst : Bytes) : Val × Out Unit :=
  match pointerOp p v .get src with
  | (v', .ok r) =>
    let (v'', o) := pointerOp p v' (.add (deepCopy r.value)) dst
    (v'', wrap ((fun _ => ()) <$> o))
  | (v', .throw _) => (v', .throw .runtime)
  | (v', .ub) => (v', .ub)

/-- `JSONPointerLookup` (src/Extensions.cc 561-572): the value the returned reference refers to. -/
def pointerLookup (p : Nat) (v : Val) (ptr : Bytes) : Val × Out Val :=
  let (v', o) := pointerOp p v .get ptr
  (v', wrap ((·.value) <$> o))

/-- One element of `FormJSONPointer` (src/Extensions.cc 576-582). -/
def formElem : PathElem → Bytes
  | .key k => 0x2f :: k
  | .index i => 0x2f :: natDec i.toNat

/-- `FormJSONPointer` (src/Extensions.cc 574-584): the key is not escaped. -/
def formPointer (p : VPath) : Bytes := p.flatMap formElem

end Verif.Ext
