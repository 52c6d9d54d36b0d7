import Verif.Val.Ops
/-!
# Storage and sharing (src/Variant.cc)

A `Variant` is a `Data` slot (include/Variant/VariantInternal.h 71-90): scalars are held in the
slot, strings, lists, maps and blobs in a shared heap cell (`shared_ptr<Storage>`).  A program's
variables are slots too.  Cells are never freed in the model: reference counting frees a cell
only when no slot refers to it, which cannot be observed.  A pointer to a `Variant` inside a
container is a location (`Loc`).

Not modelled here: references held across other operations, blob contents being changed through
the `Blob` interface.
-/

namespace Verif.Heap
open Verif

/-- A `Variant`'s `Data`. -/
inductive Slot where
  | null
  | bool (b : Bool)
  | int (i : Int64)
  | uint (u : UInt64)
  | flt (bits : UInt64)
  | str (a : Nat)
  | list (a : Nat)
  | map (a : Nat)
  | blob (a : Nat)
  deriving DecidableEq, Repr

/-- A heap cell: `StringStorage`, `ListStorage`, `MapStorage`, `BlobStorage`. -/
inductive Cell where
  | str (s : Bytes)
  | list (ss : List Slot)
  | map (m : List (Bytes × Slot))
  | blob (segs : List Bytes)
  deriving DecidableEq, Repr

/-- The cell a slot shares. -/
def Slot.addr : Slot → Option Nat
  | .str a => some a
  | .list a => some a
  | .map a => some a
  | .blob a => some a
  | _ => none

/-- The slots held in a cell. -/
def Cell.slots : Cell → List Slot
  | .list ss => ss
  | .map m => m.map (·.2)
  | _ => []

/-- Heap and variables. -/
structure St where
  cells : List Cell
  env : Nat → Slot

/-- Where a slot is: a variable, a list element or a map entry. -/
inductive Loc where
  | var (x : Nat)
  | elem (a i : Nat)
  | entry (a : Nat) (k : Bytes)
  deriving DecidableEq, Repr

/-- The slot at a location. -/
def St.rd (σ : St) : Loc → Option Slot
  | .var x => some (σ.env x)
  | .elem a i => match σ.cells[a]? with
    | some (.list ss) => ss[i]?
    | _ => none
  | .entry a k => match σ.cells[a]? with
    | some (.map m) => AMap.get m k
    | _ => none

/-- Store a cell. -/
def St.put (σ : St) (a : Nat) (c : Cell) : St := { σ with cells := σ.cells.set a c }

/-- Overwrite the slot at a location. -/
def St.wr (σ : St) (l : Loc) (s : Slot) : St :=
  match l with
  | .var x => { σ with env := fun y => if y = x then s else σ.env y }
  | .elem a i => match σ.cells[a]? with
    | some (.list ss) => σ.put a (.list (ss.set i s))
    | _ => σ
  | .entry a k => match σ.cells[a]? with
    | some (.map m) => σ.put a (.map (AMap.set m k s))
    | _ => σ

/-- `new ...Storage`. -/
def St.alloc (σ : St) (c : Cell) : St × Nat := ({ σ with cells := σ.cells ++ [c] }, σ.cells.length)

/-- `GetPathElem`, unchecked (src/Variant.cc 351-365): the location of an element. -/
def childLoc (σ : St) (s : Slot) (e : PathElem) : Option Loc :=
  match s, e with
  | .list a, .index i => match σ.cells[a]? with
    | some (.list ss) => if i.toNat < ss.length then some (.elem a i.toNat) else none
    | _ => none
  | .map a, .key k => match σ.cells[a]? with
    | some (.map m) => if (AMap.get m k).isSome then some (.entry a k) else none
    | _ => none
  | _, _ => none

/-- `GetPathConst`, unchecked (src/Variant.cc 409-430). -/
def hget (σ : St) (s : Slot) : VPath → Option Slot
  | [] => some s
  | e :: p => match childLoc σ s e with
    | none => none
    | some l => match σ.rd l with
      | none => none
      | some c => hget σ c p

/-! ## Modifying -/

/-- What a modifying operation leaves behind. -/
abbrev HWr := St × Option Err

/-- `List::SetIndex` (src/Variant.cc 1202-1207) on the cell `a`. -/
def cellSetIndex (σ : St) (a : Nat) (i : UInt32) (x : Slot) : HWr :=
  match σ.cells[a]? with
  | some (.list xs) =>
    let ys := if i.toNat < xs.length then xs
      else
        let n := (i + 1).toNat
        xs.take n ++ List.replicate (n - xs.length) .null
    if i.toNat < ys.length then (σ.put a (.list (ys.set i.toNat x)), none)
    else (σ.put a (.list ys), some .outOfRange)
  | _ => (σ, some .runtime)            -- never: a list slot refers to a list cell

/-- `Map::SetKey` (src/Variant.cc 1329-1332) on the cell `a`. -/
def cellSetKey (σ : St) (a : Nat) (k : Bytes) (x : Slot) : HWr :=
  match σ.cells[a]? with
  | some (.map m) => (σ.put a (.map (AMap.set m k x)), none)
  | _ => (σ, some .runtime)            -- never

/-- `SetIndex`/`SetKey` (src/Variant.cc 320, 348, 633-636, 664-667, 1202-1207, 1329-1332) at a
location; null turns into a new container first. -/
def hsetElem (σ : St) (l : Loc) (e : PathElem) (x : Slot) : HWr :=
  match σ.rd l, e with
  | some .null, .index i =>
    let (σ', a) := σ.alloc (.list [])
    cellSetIndex (σ'.wr l (.list a)) a i x
  | some .null, .key k =>
    let (σ', a) := σ.alloc (.map [])
    cellSetKey (σ'.wr l (.map a)) a k x
  | some (.list a), .index i => cellSetIndex σ a i x
  | some (.map a), .key k => cellSetKey σ a k x
  | _, _ => (σ, some .unexpectedType)

/-- `SetPath` (src/Variant.cc 432-454).  Storing shares the cell of `x` (`Assign`, 254, 1019-1027,
1129-1138, 1268-1277, 1380-1389). -/
def hsetPath (σ : St) (l : Loc) (p : VPath) (x : Slot) : HWr :=
  match p with
  | [] => (σ.wr l x, none)
  | e :: q =>
    match (σ.rd l).bind (childLoc σ · e) with
    | some l' => hsetPath σ l' q x
    | none =>
      if q = [] then hsetElem σ l e x
      else match hsetElem σ l e .null with
        | (σ', some err) => (σ', some err)
        | (σ', none) =>
          match (σ'.rd l).bind (childLoc σ' · e) with
          | some l' => hsetPath σ' l' q x
          | none => (σ', some .runtime)      -- never: the element has just been created

/-- `EraseIndex`/`EraseKey` (src/Variant.cc 304, 332, 613, 644, 1160-1168, 1294). -/
def heraseElem (σ : St) (l : Loc) (e : PathElem) : HWr :=
  match σ.rd l, e with
  | some .null, _ => (σ, none)
  | some (.list a), .index i => match σ.cells[a]? with
    | some (.list xs) =>
      let size := xs.length % 2 ^ 32
      if (i + 1).toNat < size then
        if i.toNat < xs.length then (σ.put a (.list (xs.set i.toNat .null)), none)
        else (σ, some .outOfRange)
      else if i.toNat < size then (σ.put a (.list xs.dropLast), none)
      else (σ, none)
    | _ => (σ, some .runtime)          -- never
  | some (.map a), .key k => match σ.cells[a]? with
    | some (.map m) => (σ.put a (.map (AMap.erase m k)), none)
    | _ => (σ, some .runtime)          -- never
  | _, _ => (σ, some .unexpectedType)

/-- `Empty` (src/Variant.cc 287, 605, 1065, 1144, 1283). -/
def hempty (σ : St) (s : Slot) : Out Bool :=
  match s with
  | .null => .ok true
  | .str a => match σ.cells[a]? with
    | some (.str b) => .ok b.isEmpty
    | _ => .ub
  | .list a => match σ.cells[a]? with
    | some (.list ss) => .ok ss.isEmpty
    | _ => .ub
  | .map a => match σ.cells[a]? with
    | some (.map m) => .ok m.isEmpty
    | _ => .ub
  | _ => .throw .invalidOperation

/-- `ErasePath` (src/Variant.cc 464-479).  If erasing below has removed the element the code
holds a pointer to (possible only in a cyclic value) the code goes on with a dangling pointer;
here it stops with an error. -/
def herasePath (σ : St) (l : Loc) (p : VPath) (rm : Bool) : HWr :=
  match p with
  | [] => (σ, none)
  | [e] => heraseElem σ l e
  | e :: e' :: q =>
    match (σ.rd l).bind (childLoc σ · e) with
    | none => (σ, none)
    | some l' =>
      match herasePath σ l' (e' :: q) rm with
      | (σ', some err) => (σ', some err)
      | (σ', none) =>
        if rm then
          match (σ'.rd l').map (hempty σ') with
          | some (.ok true) => heraseElem σ' l e
          | some (.ok false) => (σ', none)
          | some (.throw err) => (σ', some err)
          | _ => (σ', some .runtime)
        else (σ', none)

/-- `Append` (src/Variant.cc 2062-2065, `AsList` 292-293, 609-612, 1148). -/
def happend (σ : St) (l : Loc) (x : Slot) : HWr :=
  match σ.rd l with
  | some .null =>
    let (σ', a) := σ.alloc (.list [x])
    (σ'.wr l (.list a), none)
  | some (.list a) => match σ.cells[a]? with
    | some (.list ss) => (σ.put a (.list (ss ++ [x])), none)
    | _ => (σ, some .runtime)          -- never
  | _ => (σ, some .unableToConvert)

/-- `Clear` (src/Variant.cc 290, 607, 1067, 1146, 1285): lists, maps and strings are emptied in
place, anything else becomes null. -/
def hclear (σ : St) (l : Loc) : St :=
  match σ.rd l with
  | some (.str a) => σ.put a (.str [])
  | some (.list a) => σ.put a (.list [])
  | some (.map a) => σ.put a (.map [])
  | _ => σ.wr l .null

/-! ## New values and deep copies -/

mutual
/-- Build a value in new cells. -/
def allocVal (cs : List Cell) : Val → List Cell × Slot
  | .null => (cs, .null)
  | .bool b => (cs, .bool b)
  | .int i => (cs, .int i)
  | .uint u => (cs, .uint u)
  | .flt b => (cs, .flt b)
  | .str s => (cs ++ [.str s], .str cs.length)
  | .blob s => (cs ++ [.blob s], .blob cs.length)
  | .list xs =>
    let (cs', ss) := allocList cs xs
    (cs' ++ [.list ss], .list cs'.length)
  | .map m =>
    let (cs', ss) := allocMap cs m
    (cs' ++ [.map ss], .map cs'.length)
def allocList (cs : List Cell) : List Val → List Cell × List Slot
  | [] => (cs, [])
  | v :: vs =>
    let (cs1, s) := allocVal cs v
    let (cs2, ss) := allocList cs1 vs
    (cs2, s :: ss)
def allocMap (cs : List Cell) : List (Bytes × Val) → List Cell × List (Bytes × Slot)
  | [] => (cs, [])
  | v :: vs =>
    let (cs1, s) := allocVal cs v.2
    let (cs2, ss) := allocMap cs1 vs
    (cs2, (v.1, s) :: ss)
end

/-- Copy a list of slots one after the other. -/
def copyAll (f : List Cell → Slot → Option (List Cell × Slot)) (cs : List Cell) :
    List Slot → Option (List Cell × List Slot)
  | [] => some (cs, [])
  | s :: ss =>
    match f cs s with
    | none => none
    | some (cs1, s') =>
      match copyAll f cs1 ss with
      | none => none
      | some (cs2, ss') => some (cs2, s' :: ss')

/-- `Copy` (src/Variant.cc 2190; 588, 700, 828, 887, 947, 1016, 1121-1127, 1260-1266, 1377): new
cells for everything; a blob is copied into one buffer (src/Blob.cc 32-53).  The code recurses
without bound on a cyclic value; here the depth is bounded by `fuel` and `none` means that the
bound was hit.  (The code stores the container before its elements; addresses cannot be
observed.) -/
def hcopy : Nat → List Cell → Slot → Option (List Cell × Slot)
  | 0, _, _ => none
  | n + 1, cs, s =>
    match s with
    | .str a => match cs[a]? with
      | some (.str b) => some (cs ++ [.str b], .str cs.length)
      | _ => none
    | .blob a => match cs[a]? with
      | some (.blob segs) => some (cs ++ [.blob [segs.flatten]], .blob cs.length)
      | _ => none
    | .list a => match cs[a]? with
      | some (.list ss) => match copyAll (hcopy n) cs ss with
        | none => none
        | some (cs', ss') => some (cs' ++ [.list ss'], .list cs'.length)
      | _ => none
    | .map a => match cs[a]? with
      | some (.map m) => match copyAll (hcopy n) cs (m.map (·.2)) with
        | none => none
        | some (cs', ss') => some (cs' ++ [.map ((m.map (·.1)).zip ss')], .map cs'.length)
      | _ => none
    | s => some (cs, s)

/-! ## Programs -/

/-- One statement of a program using the library; variables are numbered. -/
inductive Step where
  /-- `x = <new value>` -/
  | new (x : Nat) (v : Val)
  /-- `x = y` -/
  | assign (x y : Nat)
  /-- `x = y.Copy()` -/
  | copy (x y : Nat)
  /-- `x = y.GetPath(p)` -/
  | get (x y : Nat) (p : VPath)
  /-- `x.SetPath(p, y)` -/
  | setPath (x : Nat) (p : VPath) (y : Nat)
  /-- `x.ErasePath(p, rm)` -/
  | erasePath (x : Nat) (p : VPath) (rm : Bool)
  /-- `Append(y)` to the existing element of `x` at `p` -/
  | append (x : Nat) (p : VPath) (y : Nat)
  /-- `Clear()` on the existing element of `x` at `p` -/
  | clear (x : Nat) (p : VPath)

/-- The location of an existing element. -/
def locOf (σ : St) (l : Loc) : VPath → Option Loc
  | [] => some l
  | e :: p => match (σ.rd l).bind (childLoc σ · e) with
    | none => none
    | some l' => locOf σ l' p

/-- `x = y.Copy()`, if the copy terminates: a value without cycles is not nested deeper than the
number of cells. -/
def copyVar (σ : St) (x y : Nat) : Option St :=
  match hcopy (σ.cells.length + 1) σ.cells (σ.env y) with
  | none => none
  | some (cs, s) => some ({ σ with cells := cs }.wr (.var x) s)

/-- Run one statement; statements that throw keep the state the operation left behind. -/
def step (σ : St) : Step → St
  | .new x v =>
    let (cs, s) := allocVal σ.cells v
    { σ with cells := cs }.wr (.var x) s
  | .assign x y => σ.wr (.var x) (σ.env y)
  | .copy x y => (copyVar σ x y).getD σ
  | .get x y p => match hget σ (σ.env y) p with
    | some s => σ.wr (.var x) s
    | none => σ
  | .setPath x p y => (hsetPath σ (.var x) p (σ.env y)).1
  | .erasePath x p rm => (herasePath σ (.var x) p rm).1
  | .append x p y => match locOf σ (.var x) p with
    | some l => (happend σ l (σ.env y)).1
    | none => σ
  | .clear x p => match locOf σ (.var x) p with
    | some l => hclear σ l
    | none => σ

/-- Run a program. -/
def run (σ : St) (prog : List Step) : St := prog.foldl step σ

/-- No storage, all variables null. -/
def init : St := ⟨[], fun _ => .null⟩

/-! ## Observing -/

/-- What a program can see of one value without looking into its elements. -/
inductive Obs where
  | null
  | bool (b : Bool)
  | int (i : Int64)
  | uint (u : UInt64)
  | flt (bits : UInt64)
  | str (s : Bytes)
  | list (size : Nat)
  | map (keys : List Bytes)
  | blob (content : Bytes)
  deriving DecidableEq, Repr

/-- Look at one slot. -/
def look (σ : St) : Slot → Option Obs
  | .null => some .null
  | .bool b => some (.bool b)
  | .int i => some (.int i)
  | .uint u => some (.uint u)
  | .flt b => some (.flt b)
  | .str a => match σ.cells[a]? with
    | some (.str s) => some (.str s)
    | _ => none
  | .list a => match σ.cells[a]? with
    | some (.list ss) => some (.list ss.length)
    | _ => none
  | .map a => match σ.cells[a]? with
    | some (.map m) => some (.map (m.map (·.1)))
    | _ => none
  | .blob a => match σ.cells[a]? with
    | some (.blob segs) => some (.blob segs.flatten)
    | _ => none

/-- What is seen at path `p` of variable `x`: nothing if there is no such element. -/
def obs (σ : St) (x : Nat) (p : VPath) : Option Obs :=
  (hget σ (σ.env x) p).bind (look σ)

end Verif.Heap
