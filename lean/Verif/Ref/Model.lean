import Verif.Val.Ops
/-!
# References and lifetimes (src/Variant.cc, include/Variant/Variant.h, include/Variant/VariantInternal.h)

The memory of a program that uses `Variant` and `VariantRef`: objects (`Data`), the storage they share, and the flags
that tell references whether their target still exists.  Objects and storage get a new number whenever they are made, so
a number that is not alive any more is a pointer to freed memory; using one is undefined behaviour.

`shared_ptr` is taken to work: storage is freed when nothing owns it any more.  The destructors of the library call
nothing but each other, so the order in which objects are destroyed is not modelled.  `std::vector` moves its elements
to new memory when it grows beyond its capacity (it copies them: `Variant` has no move constructor), and not otherwise;
`std::map` never moves its entries.  Allocation does not fail.
-/

namespace Verif.Ref
open Verif

/-- The scalars. -/
inductive Sca where
  | bool (b : Bool)
  | int (i : Int64)
  | uint (u : UInt64)
  | flt (bits : UInt64)   -- of a double; the further bits of a `long double` are not modelled
  deriving DecidableEq, Repr

/-- `vtable` and the union of `Data` (include/Variant/VariantInternal.h 71-90): strings, lists, maps and blobs are in a
shared storage, a reference has the address of its target, a proxy (a reference to what does not exist yet) has the
address of an object, a path from there, and the storage that object had when the proxy was made (src/Variant.cc 148-156). -/
inductive Slot where
  | null
  | sca (c : Sca)
  | str (s : Nat)
  | list (s : Nat)
  | map (s : Nat)
  | blob (s : Nat)
  | ref (t : Nat)
  | proxy (t : Nat) (path : VPath) (keep : Option Nat)
  deriving DecidableEq, Repr

/-- Not a reference. -/
def Slot.plain : Slot → Bool
  | .ref _ => false
  | .proxy .. => false
  | _ => true

/-- `Data::storage`: what the object owns. -/
def Slot.sto : Slot → Option Nat
  | .str s => some s
  | .list s => some s
  | .map s => some s
  | .blob s => some s
  | .proxy _ _ k => k
  | _ => none

/-- An object: whether it exists, whether it is an element of a storage, its contents and `ref_data` (the number of a
flag; for references it is the flag of the target). -/
structure Obj where
  alive : Bool
  home : Option Nat
  slot : Slot
  rd : Option Nat
  deriving DecidableEq, Repr

/-- `StringStorage`, `ListStorage` (with the capacity of the vector), `MapStorage`, `BlobStorage` (src/Variant.cc 124-142). -/
inductive Cell where
  | str (b : Bytes)
  | list (cap : Nat) (es : List Nat)
  | map (m : List (Bytes × Nat))
  | blob (segs : List Bytes)
  deriving DecidableEq, Repr

/-- The objects in a storage. -/
def Cell.elems : Cell → List Nat
  | .list _ es => es
  | .map m => m.map (·.2)
  | _ => []

structure Store where
  alive : Bool
  cell : Cell
  deriving DecidableEq, Repr

/-- The memory.  Numbers from `nObj`, `nStore`, `nRd` on are not used yet.  `valid` is `RefData::valid` (src/Variant.cc
112-115).  `holds`: storage held by local `shared_ptr`s of the library.  `env`: the variables of the program. -/
structure St where
  obj : Nat → Obj
  nObj : Nat
  store : Nat → Store
  nStore : Nat
  valid : Nat → Bool
  nRd : Nat
  holds : List Nat
  env : Nat → Option Nat

/-- At the start of the program. -/
def St.init : St :=
  ⟨fun _ => ⟨false, none, .null, none⟩, 0, fun _ => ⟨false, .str []⟩, 0, fun _ => false, 0, [], fun _ => none⟩

/-! ## Results -/

/-- What a function leaves behind. -/
inductive Res (α : Type) where
  | ok (a : α) (st : St)
  | thr (e : Err) (st : St)
  | ub

/-- Functions of the library. -/
def M (α : Type) := St → Res α

instance : Monad M where
  pure a := fun st => .ok a st
  bind m f := fun st =>
    match m st with
    | .ok a st => f a st
    | .thr e st => .thr e st
    | .ub => .ub

def throw (e : Err) : M α := fun st => .thr e st
def undefined : M α := fun _ => .ub
def modify (f : St → St) : M Unit := fun st => .ok () (f st)

/-- Access to an object. -/
def deref (x : Nat) : M Obj := fun st => if (st.obj x).alive then .ok (st.obj x) st else .ub

/-- Access to a storage. -/
def load (s : Nat) : M Cell := fun st => if (st.store s).alive then .ok (st.store s).cell st else .ub

/-! ## Memory -/

def St.setObj (st : St) (x : Nat) (o : Obj) : St := { st with obj := fun y => if y = x then o else st.obj y }
def St.setSlot (st : St) (x : Nat) (s : Slot) : St := st.setObj x { st.obj x with slot := s }
def St.setCell (st : St) (s : Nat) (c : Cell) : St :=
  { st with store := fun y => if y = s then { st.store s with cell := c } else st.store y }

/-- New objects. -/
def St.new (st : St) (home : Option Nat) (slots : List Slot) : St :=
  { st with
    obj := fun x => match if x < st.nObj then none else slots[x - st.nObj]? with
      | some s => ⟨true, home, s, none⟩
      | none => st.obj x
    nObj := st.nObj + slots.length }

/-- Their numbers. -/
def St.fresh (st : St) (n : Nat) : List Nat := (List.range n).map (st.nObj + ·)

/-- A new storage; its number is `nStore`. -/
def St.newStore (st : St) (c : Cell) : St :=
  { st with store := fun y => if y = st.nStore then ⟨true, c⟩ else st.store y, nStore := st.nStore + 1 }

/-- `VTable::Destruct` (src/Variant.cc 531-537) and `Ref::Destruct`, `Proxy::Destruct` (1611-1614, 1904-1907) of some
objects, without giving back their storage: the flag of an object that is no reference is cleared. -/
def St.kill (st : St) (xs : List Nat) : St :=
  { st with
    obj := fun x => if x ∈ xs then { st.obj x with alive := false } else st.obj x
    valid := fun k => st.valid k && !(xs.any fun x => (st.obj x).slot.plain && (st.obj x).rd == some k) }

/-- Whether anything owns a storage. -/
def St.owned (st : St) (s : Nat) : Bool :=
  st.holds.contains s || (List.range st.nObj).any fun x => (st.obj x).alive && (st.obj x).slot.sto == some s

/-- Free a storage and the objects in it. -/
def St.free (st : St) (s : Nat) : St :=
  let st' := st.kill (st.store s).cell.elems
  { st' with store := fun y => if y = s then { st.store s with alive := false } else st.store y }

/-- Storage without owner. -/
def St.garbage (st : St) : Option Nat := (List.range st.nStore).find? fun s => (st.store s).alive && !st.owned s

/-- Storage is freed when the last owner is gone (`shared_ptr`), and what is owned by the objects in it, and so on. -/
def collect : Nat → St → St
  | 0, st => st
  | n + 1, st => match st.garbage with
    | none => st
    | some s => collect n (st.free s)

/-- As often as needed: every round frees a storage. -/
def St.collect (st : St) : St := Ref.collect st.nStore st

/-! ## Contents of objects -/

/-- The end of `NullInit`, `IntegerInit` and so on (src/Variant.cc 678-681, `VTable::Destroy` 525-529), and of `Assign`
for containers (1019-1027, 1129-1137, 1268-1276, 1380-1388): the old storage is given back, then the object written. -/
def setSlot (x : Nat) (new : Slot) : M Unit := do
  let _ ← deref x
  modify fun st => (st.setSlot x new).collect
  let _ ← deref x

/-- `StringInit`, `ListInit`, `MapInit`, `BlobInit` (src/Variant.cc 1082-1088, 1222-1228, 1348-1354, 1413-1419). -/
def initSlot (x : Nat) (mk : Nat → Slot) (c : Cell) : M Unit := do
  let _ ← deref x
  modify fun st => ((st.newStore c).setSlot x (mk st.nStore)).collect
  let _ ← deref x

/-- An object that is no reference; `ref` of a reference is always one. -/
def derefPlain (x : Nat) : M Slot := do
  let o ← deref x
  if o.slot.plain then pure o.slot else undefined

/-- `ref_data->valid`. -/
def checkFlag (k : Nat) : M Unit := fun st => if st.valid k then .ok () st else .thr .invalidReference st

/-- `CheckRef` (src/Variant.cc 1477-1481). -/
def checkRef (x : Nat) : M Unit := do
  let o ← deref x
  match o.rd with
  | none => throw .invalidReference
  | some k => checkFlag k

/-- `ref_data.reset(new RefData())`. -/
def newRd (t : Nat) : M Nat := fun st =>
  .ok st.nRd { st.setObj t { st.obj t with rd := some st.nRd } with
    valid := fun k => if k = st.nRd then true else st.valid k, nRd := st.nRd + 1 }

/-- `EnsureRef` (src/Variant.cc 518-523). -/
def ensureRef (t : Nat) : M Nat := do
  let o ← deref t
  match o.rd with
  | some k => pure k
  | none => newRd t

/-- The rest of `RefInit`, `ProxyInit`: the contents of the reference. -/
def setRef (r : Nat) (s : Slot) (k : Nat) : M Unit := do
  let _ ← deref r
  modify fun st => st.setObj r { st.obj r with slot := s, rd := some k }

/-- `Destroy` of a reference (src/Variant.cc 1606-1609, 1899-1902): a proxy gives back the storage it keeps.  Its contents are
written over right after this; meanwhile it is left as a reference to the same object. -/
def release (r : Nat) : M Unit := do
  let o ← deref r
  match o.slot with
  | .proxy t _ _ => setSlot r (.ref t)
  | _ => pure ()

/-- `RefInit` (src/Variant.cc 1629-1636): `r` gives back its storage, then it refers to `t`, which is no reference itself. -/
def refInit (t r : Nat) : M Unit := do
  release r
  let k ← ensureRef t
  let _ ← derefPlain t
  setRef r (.ref t) k

/-- `ProxyInit` (src/Variant.cc 1934-1942). -/
def proxyInit (t r : Nat) (path : VPath) : M Unit := do
  release r
  let k ← ensureRef t
  let s ← derefPlain t
  setRef r (.proxy t path s.sto) k

/-- `MakeRef` (src/Variant.cc 257-259, 1489-1490, 1735-1738).  A proxy made a reference to itself uses the path it has just
given back. -/
def makeRef (x r : Nat) : M Unit := do
  let o ← deref x
  match o.slot with
  | .ref t => do checkRef x; let _ ← derefPlain t; refInit t r
  | .proxy t p _ => do checkRef x; if x = r then undefined else proxyInit t r p
  | _ => refInit x r

/-- `MakeProxy` (src/Variant.cc 260-261, 1492-1493, 1740-1746). -/
def makeProxy (x r : Nat) (path : VPath) : M Unit := do
  let o ← deref x
  match o.slot with
  | .ref t => do checkRef x; proxyInit t r path
  | .proxy t p _ => do checkRef x; proxyInit t r (p ++ path)
  | _ => proxyInit x r path

/-! ## Elements -/

/-- `GetIndex`, `GetKey`, `GetConstIndex`, `GetConstKey`, unchecked (src/Variant.cc 310-318, 338-346, 623-631, 654-662,
1182-1200, 1307-1327). -/
def child (t : Nat) (e : PathElem) : M (Option Nat) := do
  let s ← derefPlain t
  match s, e with
  | .list s, .index i => do
    match ← load s with
    | .list _ es => pure es[i.toNat]?
    | _ => undefined
  | .map s, .key k => do
    match ← load s with
    | .map m => pure (AMap.get m k)
    | _ => undefined
  | _, _ => pure none

/-- What is thrown for a missing element (the same lines). -/
def missing (t : Nat) (e : PathElem) : M α := do
  let s ← derefPlain t
  match s, e with
  | .null, .index _ => throw .outOfRange
  | .null, .key _ => throw .key
  | .list _, .index _ => throw .outOfRange
  | .map _, .key _ => throw .key
  | _, _ => throw .unexpectedType

/-- `GetPathConst`, unchecked (src/Variant.cc 409-430). -/
def find (t : Nat) : VPath → M (Option Nat)
  | [] => do let _ ← derefPlain t; pure (some t)
  | e :: p => do
    match ← child t e with
    | none => pure none
    | some c => find c p

/-- `GetPathConst`, checked. -/
def findChecked (t : Nat) : VPath → M Nat
  | [] => do let _ ← derefPlain t; pure t
  | e :: p => do
    match ← child t e with
    | none => missing t e
    | some c => findChecked c p

/-- More elements for a vector, with the given contents: in place if the capacity allows, otherwise all elements are
copied and the old ones destroyed.  `grow size needed` is the new capacity. -/
def St.extend (st : St) (grow : Nat → Nat → Nat) (s : Nat) (cap : Nat) (es : List Nat) (slots : List Slot) : St :=
  if es.length + slots.length ≤ cap then
    (st.new (some s) slots).setCell s (.list cap (es ++ st.fresh slots.length))
  else
    let all := es.map (fun x => (st.obj x).slot) ++ slots
    ((st.new (some s) all).kill es).setCell s (.list (max all.length (grow es.length all.length)) (st.fresh all.length))

/-- Elements are taken out of a container and destroyed.  The container must not be freed by this. -/
def drop (s : Nat) (c : Cell) (gone : List Nat) : M Unit := do
  modify fun st => ((st.setCell s c).kill gone).collect
  let _ ← load s

/-- `list.resize(n)`. -/
def resize (grow : Nat → Nat → Nat) (s n : Nat) : M Unit := do
  match ← load s with
  | .list cap es =>
    if n ≤ es.length then drop s (.list cap (es.take n)) (es.drop n)
    else modify fun st => st.extend grow s cap es (List.replicate (n - es.length) .null)
  | _ => undefined

/-- `map.insert(std::make_pair(k, Variant()))` of a key that is not there. -/
def insert (s : Nat) (m : List (Bytes × Nat)) (k : Bytes) : M Nat := fun st =>
  .ok st.nObj ((st.new (some s) [.null]).setCell s (.map (AMap.set m k st.nObj)))

/-- An object that is null becomes a container (src/Variant.cc 615-621, 633-636, 646-652, 664-667). -/
def asContainer (t : Nat) (e : PathElem) : M Unit := do
  match ← derefPlain t, e with
  | .null, .index _ => initSlot t .list (.list 0 [])
  | .null, .key _ => initSlot t .map (.map [])
  | _, _ => pure ()

/-- The element of a list after it was made long enough. -/
def pick (t s : Nat) (i : UInt32) : M Nat := do
  let _ ← derefPlain t
  match ← load s with
  | .list _ es => match es[i.toNat]? with
    | some x => pure x
    | none => throw .outOfRange
  | _ => undefined

/-- The element of a container, made (null) if it is missing. -/
def mkIn (grow : Nat → Nat → Nat) (t : Nat) (e : PathElem) : M Nat := do
  match ← derefPlain t, e with
  | .list s, .index i => do
    match ← load s with
    | .list _ es =>
      if i.toNat < es.length then pick t s i
      else do
        resize grow s (i + 1).toNat
        pick t s i
    | _ => undefined
  | .map s, .key k => do
    match ← load s with
    | .map m => match AMap.get m k with
      | some x => pure x
      | none => insert s m k
    | _ => undefined
  | _, _ => throw .unexpectedType

/-- The element at an index or key, made (null) if it is missing: `SetIndex`, `SetKey` without the assignment
(src/Variant.cc 320-321, 348-349, 633-636, 664-667, 1202-1207, 1329-1332) and `GetRefIndex`, `GetRefKey` with a default
(307-308, 335-336, 615-621, 646-652, 1170-1180, 1296-1305). -/
def mkElem (grow : Nat → Nat → Nat) (t : Nat) (e : PathElem) : M Nat := do
  asContainer t e
  mkIn grow t e

/-- `GetPathRef` with a default `d` (src/Variant.cc 383-407): the object the reference is made to. -/
def getPathDef (grow : Nat → Nat → Nat) (d : Nat) (t : Nat) : VPath → M Nat
  | [] => do let _ ← derefPlain t; pure t
  | e :: p => do
    match ← child t e with
    | some c => getPathDef grow d c p
    | none => do
      let x ← mkElem grow t e
      if p = [] then do
        let s ← derefPlain d
        setSlot x s
        pure x
      else getPathDef grow d x p

/-! ## References -/

/-- A local variable of a function; it is destroyed when the function returns or throws. -/
def withTemp (f : Nat → M α) : M α := fun st =>
  match f st.nObj (st.new none [.null]) with
  | .ok a st' => .ok a (st'.kill [st.nObj]).collect
  | .thr e st' => .thr e (st'.kill [st.nObj]).collect
  | .ub => .ub

/-- A local `shared_ptr`. -/
def withHold (s : Nat) (m : M α) : M α := fun st =>
  match m { st with holds := s :: st.holds } with
  | .ok a st' => .ok a { st' with holds := st.holds }.collect
  | .thr e st' => .thr e { st' with holds := st.holds }.collect
  | .ub => .ub

/-- `ProxyResolveCheck` (src/Variant.cc 1694-1706): a proxy whose path exists by now becomes a reference. -/
def resolveCheck (p : Nat) (t : Nat) (path : VPath) : M Bool := do
  checkRef p
  match ← find t path with
  | some c => do refInit c p; pure true
  | none => pure false

/-- `ProxyResolveThrow` (src/Variant.cc 1708-1716). -/
def resolveThrow (p : Nat) (t : Nat) (path : VPath) : M Unit := do
  checkRef p
  let c ← findChecked t path
  refInit c p

/-- `ProxyResolveCreate` (src/Variant.cc 1718-1726). -/
def resolveCreate (grow : Nat → Nat → Nat) (p : Nat) (t : Nat) (path : VPath) : M Unit := do
  checkRef p
  withTemp fun d => do
    let c ← getPathDef grow d t path
    refInit c p

/-- The object a reference refers to (`Ref::...`, src/Variant.cc 1483-1627). -/
def follow (r : Nat) : M Nat := do
  let o ← deref r
  match o.slot with
  | .ref t => do checkRef r; let _ ← derefPlain t; pure t
  | _ => undefined

/-- The object an operation that does not create anything works on: the object itself, the target of the reference, or
the target of the proxy, which must exist (`Proxy::...`, src/Variant.cc 1729-1917). -/
def target (x : Nat) : M Nat := do
  let o ← deref x
  match o.slot with
  | .ref _ => follow x
  | .proxy t p _ => do resolveThrow x t p; follow x
  | _ => pure x

/-- The same for operations that create what is missing, `Resolve` (src/Variant.cc 539-540, 1616-1617, 1909-1912). -/
def targetCreate (grow : Nat → Nat → Nat) (x : Nat) : M Nat := do
  let o ← deref x
  match o.slot with
  | .ref _ => follow x
  | .proxy t p _ => do resolveCreate grow x t p; follow x
  | _ => pure x

/-- `Assign` (src/Variant.cc 254-255, 1019-1027, 1129-1137, 1268-1276, 1380-1388, 1486-1487, 1732-1733, 2205-2206): `y` is assigned
to `x`.  Containers are held in a local `shared_ptr` meanwhile, scalars are not.  (In line 255 `that->vtable` is taken to
be read before `Resolve` is called.) -/
def assign (grow : Nat → Nat → Nat) (y x : Nat) : M Unit := do
  let t ← target y
  let s ← derefPlain t
  match s.sto with
  | some a => withHold a do
    let d ← targetCreate grow x
    setSlot d s
  | none => do
    let d ← targetCreate grow x
    let _ ← derefPlain t
    setSlot d s

/-! ## Programs -/

/-- A literal. -/
inductive Lit where
  | null | sca (c : Sca) | str (b : Bytes) | list | map | blob (segs : List Bytes)
  deriving DecidableEq, Repr

/-- `Assign` of a type, number, text or blob (src/Variant.cc 2208-2250). -/
def assignLit (d : Nat) : Lit → M Unit
  | .null => setSlot d .null
  | .sca c => setSlot d (.sca c)
  | .str b => initSlot d .str (.str b)
  | .list => initSlot d .list (.list 0 [])
  | .map => initSlot d .map (.map [])
  | .blob b => initSlot d .blob (.blob b)

/-- What is seen of a value: a scalar, a text, the size of a list, the keys of a map. -/
inductive View where
  | null | sca (c : Sca) | str (b : Bytes) | list (n : Nat) | map (ks : List Bytes) | blob (segs : List Bytes)
  | exists (b : Bool)
  | unit
  deriving DecidableEq, Repr

/-- What the program does.  `x`, `y`, `r` are variables. -/
inductive Op where
  | var (x : Nat)                                  -- Variant x;
  | del (x : Nat)                                  -- the end of the scope of x
  | put (x : Nat) (v : Lit)                        -- x = v;
  | assign (x y : Nat)                             -- x = y;
  | mkRef (r x : Nat)                              -- VariantRef r = x.Ref();
  | mkProxy (r x : Nat) (p : VPath)                -- VariantRef r(x, p);
  | at (r x : Nat) (e : PathElem)                  -- VariantRef r = x[e];
  | atPath (r x : Nat) (p : VPath)                 -- VariantRef r = x.AtPath(p);
  | atPathDef (r x : Nat) (p : VPath) (y : Nat)    -- VariantRef r = x.AtPath(p, y);
  | reassign (r x : Nat)                           -- r.ReassignRef(x);
  | set (x : Nat) (e : PathElem) (y : Nat)         -- x.Set(e, y);
  | append (x y : Nat)                             -- x.Append(y);
  | erase (x : Nat) (e : PathElem)                 -- x.Erase(e);
  | clear (x : Nat)                                -- x.Clear();
  | copy (x y : Nat)                               -- Variant x = y.Copy();
  | look (x : Nat)                                 -- reading x
  | exists (x : Nat)                               -- x.Exists()
  deriving DecidableEq, Repr

/-- The object of a variable; a variable that is not declared is no C++ program. -/
def var (x : Nat) (f : Nat → M View) : M View := fun st =>
  match st.env x with
  | some o => f o st
  | none => .ok .unit st

/-- A new variable, made by a constructor; if that throws there is no variable. -/
def declare (x : Nat) (f : Nat → M Unit) : M View := fun st =>
  match st.env x with
  | some _ => .ok .unit st
  | none =>
    match f st.nObj (st.new none [.null]) with
    | .ok _ st' => .ok .unit { st' with env := fun y => if y = x then some st.nObj else st'.env y }
    | .thr e st' => .thr e (st'.kill [st.nObj]).collect
    | .ub => .ub

/-- `GetRefIndex`, `GetRefKey` without default (src/Variant.cc 307-308, 335-336, 620, 651, 1170-1180, 1296-1305, 1543-1544,
1567-1568, 1796-1809, 1840-1853). -/
def refAt (x r : Nat) (e : PathElem) : M Unit := do
  let o ← deref x
  match o.slot with
  | .ref _ => do let t ← follow x; go t
  | .proxy t p _ => do
    if ← resolveCheck x t p then
      let t ← follow x
      go t
    else proxyInit t r (p ++ [e])
  | _ => go x
where
  go (t : Nat) : M Unit := do
    match ← child t e with
    | some c => refInit c r
    | none => do
      match ← derefPlain t, e with
      | .null, _ => proxyInit t r [e]
      | .list _, .index _ => proxyInit t r [e]
      | .map _, .key _ => proxyInit t r [e]
      | _, _ => throw .unexpectedType

/-- `AtPath` without default (src/Variant.cc 383-407, 2111-2112) on any variant. -/
def refAtPath (x r : Nat) (p : VPath) : M Unit := do
  if p = [] then makeRef x r
  else do
    let o ← deref x
    match o.slot with
    | .ref _ => do let t ← follow x; walk r t p
    | .proxy t q _ => do
      if ← resolveCheck x t q then
        let t ← follow x
        walk r t p
      else proxyInit t r (q ++ p)
    | _ => walk r x p
where
  walk (r t : Nat) : VPath → M Unit
  | [] => refInit t r
  | e :: p => do
    match ← child t e with
    | some c => walk r c p
    | none => proxyInit t r (e :: p)

/-- `AtPath` with a default (src/Variant.cc 383-407, 2114-2115) on any variant; `Proxy` creates its own path first
(1796-1801, 1825-1826, 1840-1845, 1869-1870). -/
def refAtPathDef (grow : Nat → Nat → Nat) (x r : Nat) (p : VPath) (d : Nat) : M Unit := do
  if p = [] then makeRef x r
  else do
    let t ← targetCreate grow x
    let c ← getPathDef grow d t p
    refInit c r

/-- `EraseIndex`, `EraseKey` (src/Variant.cc 304-305, 332-333, 613, 644, 1160-1168, 1294). -/
def eraseElem (t : Nat) (e : PathElem) : M Unit := do
  match ← derefPlain t, e with
  | .null, _ => pure ()
  | .list s, .index i => do
    match ← load s with
    | .list cap es =>
      if (i + 1).toNat < es.length % 2 ^ 32 then
        match es[i.toNat]? with
        | some x => setSlot x .null
        | none => throw .outOfRange
      else if i.toNat < es.length % 2 ^ 32 then drop s (.list cap es.dropLast) (es.drop (es.length - 1))
      else pure ()
    | _ => undefined
  | .map s, .key k => do
    match ← load s with
    | .map m => match AMap.get m k with
      | some x => drop s (.map (AMap.erase m k)) [x]
      | none => pure ()
    | _ => undefined
  | _, _ => throw .unexpectedType

/-- `Clear` (src/Variant.cc 290, 607, 1067, 1146, 1285). -/
def clearObj (t : Nat) : M Unit := do
  match ← derefPlain t with
  | .null => pure ()
  | .str s => do
    match ← load s with
    | .str _ => modify fun st => st.setCell s (.str [])
    | _ => undefined
  | .list s => do
    match ← load s with
    | .list cap es => drop s (.list cap []) es
    | _ => undefined
  | .map s => do
    match ← load s with
    | .map m => drop s (.map []) (m.map (·.2))
    | _ => undefined
  | _ => setSlot t .null

/-- Reading. -/
def view (t : Nat) : M View := do
  match ← derefPlain t with
  | .null => pure .null
  | .sca c => pure (.sca c)
  | .str s => do match ← load s with | .str b => pure (.str b) | _ => undefined
  | .list s => do match ← load s with | .list _ es => pure (.list es.length) | _ => undefined
  | .map s => do match ← load s with | .map m => pure (.map (m.map (·.1))) | _ => undefined
  | .blob s => do match ← load s with | .blob b => pure (.blob b) | _ => undefined
  | _ => undefined

/-- `AsList` (src/Variant.cc 292-293, 609-612, 1148, 1781-1782) of an object that is null. -/
def asList (t : Nat) : M Unit := do
  match ← derefPlain t with
  | .null => initSlot t .list (.list 0 [])
  | _ => pure ()

/-- `Append` of an object (src/Variant.cc 2062-2065). -/
def appendObj (grow : Nat → Nat → Nat) (t v : Nat) : M Unit := do
  asList t
  match ← derefPlain t with
  | .list s => do
    let c ← derefPlain v
    match ← load s with
    | .list cap es => modify fun st => st.extend grow s cap es [c]
    | _ => undefined
  | _ => throw .unableToConvert

/-- `list.push_back` of an object that is a local variable (src/Variant.cc 1125). -/
def pushBack (grow : Nat → Nat → Nat) (d c : Nat) : M Unit := do
  match ← derefPlain d with
  | .list s => do
    let x ← derefPlain c
    match ← load s with
    | .list cap es => modify fun st => st.extend grow s cap es [x]
    | _ => undefined
  | _ => undefined

/-- `map.insert` of a key and an object that is a local variable (src/Variant.cc 1264): nothing if the key is there. -/
def insertCopy (k : Bytes) (d c : Nat) : M Unit := do
  match ← derefPlain d with
  | .map s => do
    let x ← derefPlain c
    match ← load s with
    | .map m => match AMap.get m k with
      | some _ => pure ()
      | none => modify fun st => (st.new (some s) [x]).setCell s (.map (AMap.set m k st.nObj))
    | _ => undefined
  | _ => undefined

/-- A loop over the elements of a container. -/
def each (f : α → M Unit) : List α → M Unit
  | [] => pure ()
  | a :: as => do f a; each f as

/-- `Copy` of an object that is no reference (src/Variant.cc 588, 700-701, 828-829, 887-888, 947-949, 1016-1017, 1121-1127,
1260-1266, 1377-1378, 2190-2194): `t` is copied into `d`, which is null.  A blob is copied into one buffer (src/Blob.cc 32-52,
88-90); its size is taken to fit 32 bits.  `n` bounds the depth of the recursion: a value that contains itself is copied until
the stack overflows. -/
def copyObj (grow : Nat → Nat → Nat) : Nat → Nat → Nat → M Unit
  | 0, _, _ => undefined
  | n + 1, t, d => do
    match ← derefPlain t with
    | .null => setSlot d .null
    | .sca c => setSlot d (.sca c)
    | .str s => do
      match ← load s with
      | .str b => initSlot d .str (.str b)
      | _ => undefined
    | .list s => do
      initSlot d .list (.list 0 [])
      match ← load s with
      | .list _ es => each (fun e => withTemp fun c => do copyObj grow n e c; pushBack grow d c) es
      | _ => undefined
    | .map s => do
      initSlot d .map (.map [])
      match ← load s with
      | .map m => each (fun e => withTemp fun c => do copyObj grow n e.2 c; insertCopy e.1 d c) m
      | _ => undefined
    | .blob s => do
      match ← load s with
      | .blob b => initSlot d .blob (.blob [b.flatten])
      | _ => undefined
    | _ => undefined

/-- `Copy` (src/Variant.cc 2190-2194, 1483-1484, 1729-1730).  Storage within storage that does not contain itself is at most as
deep as there is storage. -/
def copyDeep (grow : Nat → Nat → Nat) (t d : Nat) : M Unit := fun st => copyObj grow (st.nStore + 2) t d st

/-- `Exists` (src/Variant.cc 548, 1625-1627, 1924-1932). -/
def existsObj (x : Nat) : M Bool := do
  let o ← deref x
  match o.slot with
  | .ref _ => isValid o.rd
  | .proxy t p _ => do
    if ← isValid o.rd then
      let c ← find t p
      pure c.isSome
    else pure false
  | _ => pure true
where
  isValid : Option Nat → M Bool
  | none => pure false
  | some k => fun st => .ok (st.valid k) st

/-- One operation.  Parameters taken by value are copies (`Variant(const Variant &)`, include/Variant/Variant.h 104). -/
def step (grow : Nat → Nat → Nat) : Op → M View
  | .var x => declare x fun _ => pure ()
  | .del x => fun st =>
    match st.env x with
    | some o => .ok .unit ({ st with env := fun y => if y = x then none else st.env y }.kill [o]).collect
    | none => .ok .unit st
  | .put x v => var x fun o => do
    let d ← targetCreate grow o
    assignLit d v
    pure .unit
  | .assign x y => var x fun o => var y fun q => do
    assign grow q o
    pure .unit
  | .mkRef r x => var x fun o => declare r fun q => makeRef o q
  | .mkProxy r x p => var x fun o => declare r fun q => makeProxy o q p
  | .at r x e => var x fun o => declare r fun q => refAt o q e
  | .atPath r x p => var x fun o => declare r fun q => refAtPath o q p
  | .atPathDef r x p y => var x fun o => var y fun v => declare r fun q => withTemp fun d => do
    assign grow v d
    refAtPathDef grow o q p d
  | .reassign r x => var r fun q => var x fun o => do
    if (← deref q).slot.plain then pure .unit      -- no such call: `ReassignRef` is a member of `VariantRef`
    else do
      makeRef o q
      pure .unit
  | .set x e y => var x fun o => var y fun v => withTemp fun d => do
    assign grow v d
    let t ← targetCreate grow o
    let c ← mkElem grow t e
    assign grow d c
    pure .unit
  | .append x y => var x fun o => var y fun v => withTemp fun d => do
    assign grow v d
    let t ← targetCreate grow o
    appendObj grow t d
    pure .unit
  | .erase x e => var x fun o => do
    let t ← target o
    eraseElem t e
    pure .unit
  | .clear x => var x fun o => do
    let t ← target o
    clearObj t
    pure .unit
  | .copy x y => var y fun o => declare x fun q => do
    let t ← target o
    copyDeep grow t q
  | .look x => var x fun o => do
    let t ← target o
    view t
  | .exists x => var x fun o => do
    let b ← existsObj o
    pure (.exists b)

/-- A program; exceptions are caught and the program goes on.  `none`: undefined behaviour. -/
def run (grow : Nat → Nat → Nat) : List Op → St → Option (St × List (Out View))
  | [], st => some (st, [])
  | op :: ops, st =>
    match step grow op st with
    | .ok v st => (run grow ops st).map fun r => (r.1, .ok v :: r.2)
    | .thr e st => (run grow ops st).map fun r => (r.1, .throw e :: r.2)
    | .ub => none

end Verif.Ref
