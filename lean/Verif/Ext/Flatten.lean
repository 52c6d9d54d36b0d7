import Verif.Val.Compare
import Verif.Val.Ops
/-!
# Flattening and expanding (src/Extensions.cc 42-186), on value trees
-/

namespace Verif.Ext
open Verif

/-- The parameters (src/Extensions.cc 51-107) flattening and expanding read. -/
structure FlatParams where
  noSimpleLists : Bool
  pathPrefix : Bytes
  pathDelimiter : Bytes
  indexPrefix : Bytes
  indexSuffix : Bytes

/-- The defaults `ExtensionParams` fills in (src/Extensions.cc 66-98). -/
def FlatParams.default : FlatParams := ⟨true, [], [0x2f], [0x5b], [0x5d]⟩

/-- `SimpleList` (src/Extensions.cc 42-49) on the elements of a list. -/
def simpleList (xs : List Val) : Bool := xs.all fun x => x.ty ≠ .map && x.ty ≠ .list

/-- Store a value in the flat form (src/Extensions.cc 125-129, 156-160). -/
def putFlat (flat : Val) (pre : Bytes) (v : Val) : Wr :=
  if pre ≠ [] then setElem flat (.key pre) (deepCopy v) else (deepCopy v, none)

/-- The prefix below a list element (src/Extensions.cc 132-138). -/
def indexText (ps : FlatParams) (pre : Bytes) (i : Nat) : Bytes := pre ++ ps.indexPrefix ++ natDec i ++ ps.indexSuffix

/-- The prefix below a member (src/Extensions.cc 145-151). -/
def keyText (ps : FlatParams) (pre : Bytes) (k : Bytes) : Bytes :=
  (if pre ≠ [] then pre ++ ps.pathDelimiter else ps.pathPrefix) ++ k

/-- `FlattenPathTo` (src/Extensions.cc 121-162), with its loops over a list (131-140) and a map
(144-153).  An exception ends them. -/
def flattenTo (ps : FlatParams) (flat : Val) (pre : Bytes) : Val → Wr
  | .list xs =>
    if !ps.noSimpleLists && simpleList xs then putFlat flat pre (.list xs) else flattenList ps flat pre 0 xs
  | .map m => flattenMap ps flat pre m
  | v => putFlat flat pre v
where
  flattenList (ps : FlatParams) (flat : Val) (pre : Bytes) (i : Nat) : List Val → Wr
    | [] => (flat, none)
    | x :: r =>
      match flattenTo ps flat (indexText ps pre i) x with
      | (flat', none) => flattenList ps flat' pre (i + 1) r
      | e => e
  flattenMap (ps : FlatParams) (flat : Val) (pre : Bytes) : List (Bytes × Val) → Wr
    | [] => (flat, none)
    | x :: r =>
      match flattenTo ps flat (keyText ps pre x.1) x.2 with
      | (flat', none) => flattenMap ps flat' pre r
      | e => e

/-- `FlattenPath` (src/Extensions.cc 109-113). -/
def flattenPath (ps : FlatParams) (v : Val) : Wr := flattenTo ps .null [] v

/-- The delimiter is turned into a slash (src/Extensions.cc 179-183). -/
def slashed (delim : Bytes) (path : Bytes) : Bytes := path.map fun c => if [c] = delim then 0x2f else c

/-- One round of the loop of `ExpandPathTo` (src/Extensions.cc 173-185). -/
def expandOne (delim : Bytes) (t : Val) (x : Bytes × Val) : Val × Out Unit :=
  if delim.length ≠ 1 then (t, .throw .runtime)
  else match PathM.parsePath (slashed delim x.1) with
    | .ok q => match setPath t q x.2 with
      | (t', none) => (t', .ok ())
      | (t', some e) => (t', .throw e)
    | .throw e => (t, .throw e)
    | .ub => (t, .ub)

/-- The loop of `ExpandPathTo` (src/Extensions.cc 173-185). -/
def expandLoop (delim : Bytes) (t : Val) : List (Bytes × Val) → Val × Out Unit
  | [] => (t, .ok ())
  | x :: r => match expandOne delim t x with
    | (t', .ok _) => expandLoop delim t' r
    | o => o

/-- `ExpandPath` (src/Extensions.cc 115-119, 167-186). -/
def expandPath (ps : FlatParams) (v : Val) : Val × Out Unit :=
  match v with
  | .map m => expandLoop ps.pathDelimiter .null m
  | v => (v, .ok ())

end Verif.Ext
