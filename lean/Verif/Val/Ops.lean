import Verif.Val.Basic
import Verif.Val.PathSpec
/-!
# Element and path operations of `Variant` (src/Variant.cc) on value trees

Modelled without storage sharing: a child is part of its parent.  (`Verif/Heap` models
storage sharing and relates the two.)  A modifying operation returns the value it leaves
behind *and* the exception it threw, if any, so that partial effects of a failing operation
are visible.  Not modelled: running out of memory.
-/

namespace Verif

/-- What a modifying operation leaves behind: the value and the exception thrown, if any. -/
abbrev Wr := Val × Option Err

/-! ## Reading -/

/-- `GetConstIndex`/`GetIndex` with `checked = false` (src/Variant.cc 309-317, 627-635,
1182-1200). -/
def getIndex? (v : Val) (i : UInt32) : Option Val :=
  match v with
  | .list xs => xs[i.toNat]?
  | _ => none

/-- `GetConstKey`/`GetKey` with `checked = false` (src/Variant.cc 338-346, 658-666,
1307-1327). -/
def getKey? (v : Val) (k : Bytes) : Option Val :=
  match v with
  | .map m => AMap.get m k
  | _ => none

/-- `GetPathElem` with `checked = false` (src/Variant.cc 351-365). -/
def getElem? (v : Val) : PathElem → Option Val
  | .key k => getKey? v k
  | .index i => getIndex? v i

/-- `GetConstIndex` with `checked = true` (src/Variant.cc 309-312, 627-630, 1182-1190). -/
def getIndexC (v : Val) (i : UInt32) : Out Val :=
  match v with
  | .list xs => match xs[i.toNat]? with
    | some x => .ok x
    | none => .throw .outOfRange
  | .null => .throw .outOfRange
  | _ => .throw .unexpectedType

/-- `GetConstKey` with `checked = true` (src/Variant.cc 338-341, 658-661, 1307-1316). -/
def getKeyC (v : Val) (k : Bytes) : Out Val :=
  match v with
  | .map m => match AMap.get m k with
    | some x => .ok x
    | none => .throw .key
  | .null => .throw .key
  | _ => .throw .unexpectedType

/-- `GetPathElem` with `checked = true` (src/Variant.cc 351-365). -/
def getElemC (v : Val) : PathElem → Out Val
  | .key k => getKeyC v k
  | .index i => getIndexC v i

/-- `GetPathConst` with `checked = true` (src/Variant.cc 409-430), i.e. `GetPath(p)`. -/
def getPath (v : Val) : VPath → Out Val
  | [] => .ok v
  | e :: p => do getPath (← getElemC v e) p

/-- `GetPathConst` with `checked = false` (src/Variant.cc 409-430). -/
def getPath? (v : Val) : VPath → Option Val
  | [] => some v
  | e :: p => match getElem? v e with
    | none => none
    | some c => getPath? c p

/-- `Variant::HasPath` (src/Variant.cc 2139-2141). -/
def hasPath (v : Val) (p : VPath) : Bool := (getPath? v p).isSome

/-- `Variant::GetPath(path, def)` (src/Variant.cc 2123-2127). -/
def getPathDef (v : Val) (p : VPath) (d : Val) : Val :=
  match getPath? v p with
  | some x => x
  | none => d

/-- `Variant::Get(i, def)` (src/Variant.cc 2051-2055) and `Get(key, def)` (2094-2098). -/
def getDef (v : Val) (e : PathElem) (d : Val) : Val :=
  match getElem? v e with
  | some x => x
  | none => d

/-- `Variant::Contains` (src/Variant.cc 298, 329, 1152, 1291, 2067, 2105). -/
def contains (v : Val) : PathElem → Bool
  | .index i => match v with
    | .list xs => i.toNat < xs.length
    | _ => false
  | .key k => match v with
    | .map m => (AMap.get m k).isSome
    | _ => false

/-! ## Writing one element -/

/-- `List::SetIndex` (src/Variant.cc 1202-1207): `resize(i + 1)` is computed in 32 bits and
`at` checks its index. -/
def setIndexList (xs : List Val) (i : UInt32) (x : Val) : Wr :=
  let ys := if i.toNat < xs.length then xs
    else
      let n := (i + 1).toNat
      xs.take n ++ List.replicate (n - xs.length) .null
  if i.toNat < ys.length then (.list (ys.set i.toNat x), none) else (.list ys, some .outOfRange)

/-- `SetIndex` (src/Variant.cc 319, 637-640, 1202-1207). -/
def setIndex (v : Val) (i : UInt32) (x : Val) : Wr :=
  match v with
  | .null => setIndexList [] i x
  | .list xs => setIndexList xs i x
  | _ => (v, some .unexpectedType)

/-- `SetKey` (src/Variant.cc 348, 668-671, 1329-1332). -/
def setKey (v : Val) (k : Bytes) (x : Val) : Wr :=
  match v with
  | .null => (.map [(k, x)], none)
  | .map m => (.map (AMap.set m k x), none)
  | _ => (v, some .unexpectedType)

/-- `SetPathElem` (src/Variant.cc 375-381). -/
def setElem (v : Val) : PathElem → Val → Wr
  | .key k, x => setKey v k x
  | .index i, x => setIndex v i x

/-- The parent after its child at `e`, reached through a pointer, has changed to `c`. -/
def putElem (v : Val) (e : PathElem) (c : Val) : Val :=
  match e, v with
  | .key k, .map m => .map (AMap.set m k c)
  | .index i, .list xs => .list (xs.set i.toNat c)
  | _, v => v

/-- `Variant::Append` (src/Variant.cc 2062-2065, with `AsList` 294, 611-614, 1148). -/
def append (v : Val) (x : Val) : Wr :=
  match v with
  | .null => (.list [x], none)
  | .list xs => (.list (xs ++ [x]), none)
  | _ => (v, some .unableToConvert)

/-! ## Paths -/

/-- `SetPath` (src/Variant.cc 432-454), with the storing of the value (`Assign`) at the end of
the path.  The recursive call after creating a missing element finds the element it has just
created, so it is unfolded once here. -/
def setPath (v : Val) (p : VPath) (x : Val) : Wr :=
  match p with
  | [] => (x, none)
  | e :: q =>
    match getElem? v e with
    | some c =>
      let (c', err) := setPath c q x
      (putElem v e c', err)
    | none =>
      if q = [] then setElem v e x
      else match setElem v e .null with
        | (v', some err) => (v', some err)
        | (v', none) =>
          let (c', err) := setPath .null q x
          (putElem v' e c', err)

/-- `EraseIndex` (src/Variant.cc 304, 616, 1160-1168): `i + 1` and the size are 32-bit. -/
def eraseIndex (v : Val) (i : UInt32) : Wr :=
  match v with
  | .null => (.null, none)
  | .list xs =>
    let size := xs.length % 2 ^ 32
    if (i + 1).toNat < size then
      if i.toNat < xs.length then (.list (xs.set i.toNat .null), none) else (v, some .outOfRange)
    else if i.toNat < size then (.list xs.dropLast, none)
    else (v, none)
  | _ => (v, some .unexpectedType)

/-- `EraseKey` (src/Variant.cc 332, 648, 1294). -/
def eraseKey (v : Val) (k : Bytes) : Wr :=
  match v with
  | .null => (.null, none)
  | .map m => (.map (AMap.erase m k), none)
  | _ => (v, some .unexpectedType)

/-- `ErasePathElem` (src/Variant.cc 456-462). -/
def eraseElem (v : Val) : PathElem → Wr
  | .key k => eraseKey v k
  | .index i => eraseIndex v i

/-- `Empty` (src/Variant.cc 287, 605, 1065, 1142, 1281). -/
def empty : Val → Out Bool
  | .null => .ok true
  | .str s => .ok s.isEmpty
  | .list xs => .ok xs.isEmpty
  | .map m => .ok m.isEmpty
  | _ => .throw .invalidOperation

/-- `ErasePath` (src/Variant.cc 464-479). -/
def erasePath (v : Val) (p : VPath) (rm : Bool) : Wr :=
  match p with
  | [] => (v, none)
  | [e] => eraseElem v e
  | e :: e' :: q =>
    match getElem? v e with
    | none => (v, none)
    | some c =>
      match erasePath c (e' :: q) rm with
      | (c', some err) => (putElem v e c', some err)
      | (c', none) =>
        let v' := putElem v e c'
        if rm then
          match empty c' with
          | .ok true => eraseElem v' e
          | .ok false => (v', none)
          | .throw err => (v', some err)
          | .ub => (v', none)          -- `empty` never is
        else (v', none)

/-! ## References -/

/-- A `VariantRef` into a document that is not modified meanwhile: a plain reference to the
existing element at `here` (`missing = []`, src/Variant.cc 1613-1620), or a proxy for the path
`missing` below it (1932-1940). -/
structure VRef where
  here : VPath
  missing : VPath
  deriving DecidableEq, Repr

/-- The same reference, seen from the document in which the value is at `pre`. -/
def VRef.under (pre : VPath) (r : VRef) : VRef := ⟨pre ++ r.here, r.missing⟩

/-- A reference to the document itself. -/
def VRef.root : VRef := ⟨[], []⟩

/-- `GetRefIndex`/`GetRefKey` (src/Variant.cc 306, 335, 618-624, 650-656, 1170-1180, 1296-1305)
on an existing value, with or without a default; also `GetRefPathElem` (367-373).  With a
default a null is turned into a container first and the default stored if the element is
missing. -/
def getRefElem (v : Val) (e : PathElem) (d : Option Val) : Val × Out VRef :=
  if v.ty = .null ∨ v.ty = e.containerTy then
    if (getElem? v e).isSome then (v, .ok ⟨[e], []⟩)
    else match d with
      | none => (v, .ok ⟨[], [e]⟩)
      | some d => match setElem v e d with
        | (v', none) => (v', .ok ⟨[e], []⟩)
        | (v', some err) => (v', .throw err)
  else (v, .throw .unexpectedType)

/-- `GetPathRef` (src/Variant.cc 383-407), i.e. `AtPath(p)` and `AtPath(p, def)` (2111-2115). -/
def getPathRef (v : Val) (p : VPath) (d : Option Val) : Val × Out VRef :=
  match p with
  | [] => (v, .ok ⟨[], []⟩)
  | e :: q =>
    match getElem? v e with
    | some c =>
      if q = [] then (v, .ok ⟨[e], []⟩)
      else
        let (c', r) := getPathRef c q d
        (putElem v e c', (VRef.under [e]) <$> r)
    | none =>
      match d with
      | none => (v, .ok ⟨[], e :: q⟩)
      | some d =>
        if q = [] then getRefElem v e (some d)
        else match setElem v e .null with
          | (v', some err) => (v', .throw err)
          | (v', none) =>
            let (c', r) := getPathRef .null q (some d)
            (putElem v' e c', (VRef.under [e]) <$> r)

/-- The document after the existing element at a path, reached through a pointer, has become
`x`. -/
def storeAt (v : Val) (p : VPath) (x : Val) : Val :=
  match p with
  | [] => x
  | e :: q => match getElem? v e with
    | some c => putElem v e (storeAt c q x)
    | none => v

/-- Apply an operation to the element a reference refers to, turning a proxy into a plain
reference with `ProxyResolveCreate` (src/Variant.cc 1718-1726, 1903-1906) first. -/
def onRefCreate (doc : Val) (r : VRef) (f : Val → Val × Out VRef) : Val × Out VRef :=
  match getPath? doc r.here with
  | none => (doc, .throw .invalidReference)
  | some v =>
    match r.missing with
    | [] => let (v', o) := f v; (storeAt doc r.here v', (VRef.under r.here) <$> o)
    | ms =>
      match getPathRef v ms (some .null) with
      | (v', .ok _) =>
        match getPath? v' ms with
        | some w =>
          let (w', o) := f w
          (storeAt doc r.here (storeAt v' ms w'), (VRef.under (r.here ++ ms)) <$> o)
        | none => (doc, .ub)          -- never: the element has just been created
      | (v', .throw err) => (storeAt doc r.here v', .throw err)
      | (v', .ub) => (storeAt doc r.here v', .ub)

/-- `operator[]`/`At` on a reference, with or without default (src/Variant.cc 1541, 1580 for a
plain one, 1788-1801 and 1858-1871 for a proxy). -/
def refAt (doc : Val) (r : VRef) (e : PathElem) (d : Option Val) : Val × Out VRef :=
  match d with
  | some d => onRefCreate doc r (getRefElem · e (some d))
  | none =>
    match getPath? doc r.here with
    | none => (doc, .throw .invalidReference)
    | some v =>
      match r.missing with
      | [] => let (v', o) := getRefElem v e none; (storeAt doc r.here v', (VRef.under r.here) <$> o)
      | ms =>
        match getPath? v ms with       -- ProxyResolveCheck, 1694-1706
        | some w =>
          let (w', o) := getRefElem w e none
          (storeAt doc r.here (storeAt v ms w'), (VRef.under (r.here ++ ms)) <$> o)
        | none => (doc, .ok ⟨r.here, ms ++ [e]⟩)

/-- A chain of lookups `doc[e1][e2]...` (no defaults). -/
def refChain (doc : Val) (r : VRef) : VPath → Val × Out VRef
  | [] => (doc, .ok r)
  | e :: es =>
    match refAt doc r e none with
    | (doc', .ok r') => refChain doc' r' es
    | (doc', .throw err) => (doc', .throw err)
    | (doc', .ub) => (doc', .ub)

/-- Reading through a reference (src/Variant.cc 1483-1607; for a proxy `ProxyResolveThrow`,
1708-1716, which reads the path with checking). -/
def refRead (doc : Val) (r : VRef) : Val × Out Val :=
  match getPath? doc r.here with
  | none => (doc, .throw .invalidReference)
  | some v => (doc, getPath v r.missing)

/-- `Exists` (src/Variant.cc 548, 1608-1610, 1924-1931). -/
def refExists (doc : Val) (r : VRef) : Bool :=
  match getPath? doc r.here with
  | none => false
  | some v => (getPath? v r.missing).isSome

/-- Assigning through a reference: `Resolve` (src/Variant.cc 1600-1603, 1903-1906), then store
(2212-2252, 254, 1129-1138, 1256-1265). -/
def refAssign (doc : Val) (r : VRef) (x : Val) : Wr :=
  match onRefCreate doc r (fun _ => (x, .ok ⟨[], []⟩)) with
  | (doc', .ok _) => (doc', none)
  | (doc', .throw err) => (doc', some err)
  | (doc', .ub) => (doc', some .runtime)      -- never: see `refAssign_eq_setPath`

/-! ## Merge -/

/-- `Variant::Merge` (src/Variant.cc 2143-2147): `Set` for every entry of the other map, in
key order; `MapBegin` (include/Variant/Variant.h) throws unless the other value is a map. -/
def mergeFrom (v : Val) : List (Bytes × Val) → Wr
  | [] => (v, none)
  | (k, x) :: r =>
    match setKey v k x with
    | (v', some e) => (v', some e)
    | (v', none) => mergeFrom v' r

end Verif
