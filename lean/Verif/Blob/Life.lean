import Verif.Blob.Model
/-!
# The life of blobs (src/Blob.cc 11-90, src/Variant.cc 1357-1422)

Programs with variables of type `BlobPtr` and `Variant`s.  `shared_ptr` is modelled by its counter; an assignment of a `shared_ptr` exchanges the
new pointer with the old one and drops the old one.  Whether an allocation fails is said by the program.  A blob that is no longer used stays in
the list with the counter 0, so that one can speak about it.  One thread.
-/

namespace Verif.BlobLife
open Verif Blob

/-- A function to call with a buffer, and its context; `MallocFree` is number 0 (src/Blob.cc 13-15). -/
structure Free where
  func : Nat
  ctx : Nat
  deriving DecidableEq, Repr

/-- `MallocFree` with the context 0 (src/Blob.cc 51, 60). -/
def mallocFree : Free := ⟨0, 0⟩

/-- A `Blob` (src/Blob.cc 72-75) and the counter of its `shared_ptr`s. -/
structure Obj where
  uses : Nat
  iov : List Iov
  free : Option Free
  deriving DecidableEq, Repr

/-- A call of a free function, for a buffer of this blob. -/
structure Call where
  blob : Nat
  free : Free
  base : Nat
  deriving DecidableEq, Repr

/-- A `Variant`: no blob, a blob, or (after an exception) the type of a blob without storage. -/
inductive Cell where
  | other | broken
  | blob (storage : Nat)
  deriving DecidableEq, Repr

/-- The variables, the `BlobStorage`s (src/Variant.cc 139-142) with their counters, the blobs, the calls of free functions, the memory obtained
by `posix_memalign`, and temporary `shared_ptr`s. -/
structure Mach where
  ptrs : List (Option Nat)
  vars : List Cell
  storages : List (Nat × Option Nat)
  blobs : List Obj
  calls : List Call
  owned : List Nat
  temps : List (Option Nat)
  stemps : List Nat
  deriving Repr

/-- Empty pointers and variants. -/
def Mach.init (n k : Nat) : Mach := ⟨List.replicate n none, List.replicate k .other, [], [], [], [], [], []⟩

/-! ## `shared_ptr` -/

/-- `~Blob` (src/Blob.cc 77-86). -/
def destroy (b : Nat) (o : Obj) : List Call := match o.free with
  | none => []
  | some f => o.iov.map fun v => ⟨b, f, v.base⟩

/-- One more `shared_ptr` to the blob. -/
def retain (bs : List Obj) : Option Nat → List Obj
  | none => bs
  | some b => bs.modify b fun o => { o with uses := o.uses + 1 }

/-- A temporary copy of the pointer `p`. -/
def push (m : Mach) (p : Option Nat) : Mach := { m with temps := p :: m.temps, blobs := retain m.blobs p }

/-- Dropping the last temporary. -/
def drop (m : Mach) : Mach := match m.temps with
  | [] => m
  | none :: ts => { m with temps := ts }
  | some b :: ts => match m.blobs[b]? with
    | none => { m with temps := ts }
    | some o =>
      let bs := m.blobs.set b { o with uses := o.uses - 1 }
      if o.uses = 1 then { m with temps := ts, blobs := bs, calls := m.calls ++ destroy b o }
      else { m with temps := ts, blobs := bs }

/-- Exchanging the last temporary with a variable. -/
def swap (m : Mach) (x : Nat) : Mach := match m.temps, m.ptrs[x]? with
  | t :: ts, some p => { m with temps := p :: ts, ptrs := m.ptrs.set x t }
  | _, _ => m

/-- A temporary copy of the pointer to the storage `i`. -/
def spush (m : Mach) (i : Nat) : Mach :=
  { m with stemps := i :: m.stemps, storages := m.storages.modify i fun c => (c.1 + 1, c.2) }

/-- Dropping the last temporary pointer to a storage; with the last one, its `BlobPtr` goes. -/
def sdrop (m : Mach) : Mach := match m.stemps with
  | [] => m
  | i :: is => match m.storages[i]? with
    | none => { m with stemps := is }
    | some c =>
      if c.1 = 1 then drop { m with stemps := is, storages := m.storages.set i (0, none), temps := c.2 :: m.temps }
      else { m with stemps := is, storages := m.storages.set i (c.1 - 1, c.2) }

/-- The variant lets go of its value: a temporary holds its storage. -/
def take (m : Mach) (v : Nat) (now : Cell) : Mach := match m.vars[v]? with
  | some (.blob i) => { m with vars := m.vars.set v now, stemps := i :: m.stemps }
  | some _ => { m with vars := m.vars.set v now }
  | none => m

/-- The variant gets the storage of the last temporary. -/
def put (m : Mach) (v : Nat) : Mach := match m.stemps, m.vars[v]? with
  | i :: is, some .other => { m with vars := m.vars.set v (.blob i), stemps := is }
  | _, _ => sdrop m

/-- `Destroy`: the value of the variant goes. -/
def destroyVar (m : Mach) (v : Nat) (now : Cell) : Mach := match m.vars[v]? with
  | some (.blob _) => sdrop (take m v now)
  | _ => take m v now

/-! ## Making blobs -/

/-- How an operation ends. -/
inductive Res where
  | ok | badAlloc | typeError | ub
  deriving DecidableEq, Repr

/-- `shared_ptr<Blob>(new Blob(…))` (src/Blob.cc 17-25, 51, 60, 69, 72-75).  Allocations: the object (0), its `std::vector` (1) and the counter
of the `shared_ptr` (2); if the last one fails, the object is deleted.  The new pointer is a temporary. -/
def makeBlob (m : Mach) (iov : List Iov) (free : Option Free) : Option Nat → Mach × Res
  | none => ({ m with blobs := m.blobs ++ [⟨1, iov, free⟩], temps := some m.blobs.length :: m.temps }, .ok)
  | some 2 => ({ m with blobs := m.blobs ++ [⟨0, iov, free⟩], calls := m.calls ++ destroy m.blobs.length ⟨0, iov, free⟩ }, .badAlloc)
  | some _ => (m, .badAlloc)

/-- `CreateCopy` (src/Blob.cc 32-52) of buffers of these lengths; `base` is the address of the new memory.  Allocation 3: `posix_memalign`.  The
bytes are in `createCopy`. -/
def makeCopy (m : Mach) (base : Nat) (iov : List Iov) (fails : Option Nat) : Mach × Res :=
  if fails = some 3 then (m, .badAlloc)
  else makeBlob { m with owned := m.owned ++ [base] } [⟨base, totalLength (iov.map (·.len))⟩] (some mallocFree) fails

/-- The pointer variable `x` gets the last temporary. -/
def store (m : Mach) (x : Nat) : Mach := drop (swap m x)

/-- `BlobInit` (src/Variant.cc 1413-1419) with the last temporary, which goes.  If `new BlobStorage` (or its counter) fails, the variant has the
type of a blob and no storage. -/
def initVar (m : Mach) (v : Nat) (fails : Bool) : Mach × Res := match m.temps with
  | [] => (m, .ok)
  | p :: _ =>
    if fails then (drop (destroyVar m v .broken), .badAlloc)
    else
      let m1 := destroyVar m v .other
      let m2 := { m1 with storages := m1.storages ++ [(1, p)], blobs := retain m1.blobs p, stemps := m1.storages.length :: m1.stemps }
      (drop (put m2 v), .ok)

/-! ## Programs -/

/-- What a program can do. -/
inductive Op where
  /-- `x = Blob::Create(iov, n, func, ctx)`, `CreateFree`, `CreateReferenced` -/
  | create (x : Nat) (iov : List Iov) (free : Option Free) (fails : Option Nat)
  /-- `x = y->Copy()` -/
  | copy (x y base : Nat) (fails : Option Nat)
  /-- `x = y` -/
  | assign (x y : Nat)
  /-- `x.reset()` -/
  | reset (x : Nat)
  /-- `x->GetPtr(0)`, `x->GetTotalLength()`, … -/
  | use (x : Nat)
  /-- `v = x` -/
  | setVar (v x : Nat) (fails : Bool)
  /-- `v = u` -/
  | assignVar (v u : Nat)
  /-- `v = 0` -/
  | clearVar (v : Nat)
  /-- `x = v.AsBlob()` -/
  | getPtr (x v : Nat)
  /-- `v = u.Copy()`; `fails'`: the `BlobStorage` of the copy cannot be allocated -/
  | copyVar (v u base : Nat) (fails : Option Nat) (fails' : Bool)
  /-- `v.Size()` -/
  | sizeVar (v : Nat)

/-- Looking into a blob: there must be one. -/
def look (m : Mach) : Option Nat → Option Obj
  | none => none
  | some b => match m.blobs[b]? with
    | none => none
    | some o => if o.uses = 0 then none else some o

/-- The pointer in a storage (src/Variant.cc 1394-1398): the storage must be there. -/
def inside (m : Mach) (i : Nat) : Option (Option Nat) := match m.storages[i]? with
  | none => none
  | some c => if c.1 = 0 then none else some c.2

/-- One operation. -/
def step (m : Mach) : Op → Mach × Res
  | .create x iov free fails => match makeBlob m iov free fails with
    | (m, .ok) => (store m x, .ok)
    | r => r
  | .copy x y base fails => match look m (m.ptrs[y]?.getD none) with
    | none => (m, .ub)
    | some o => match makeCopy m base o.iov fails with
      | (m, .ok) => (store m x, .ok)
      | r => r
  | .assign x y => (store (push m (m.ptrs[y]?.getD none)) x, .ok)
  | .reset x => (store (push m none) x, .ok)
  | .use x => match look m (m.ptrs[x]?.getD none) with
    | none => (m, .ub)
    | some _ => (m, .ok)
  | .setVar v x fails => initVar (push m (m.ptrs[x]?.getD none)) v fails
  | .assignVar v u => match m.vars[u]? with
    | some (.blob i) => (put (destroyVar (spush m i) v .other) v, .ok)
    | some c => (destroyVar m v c, .ok)
    | none => (m, .ok)
  | .clearVar v => (destroyVar m v .other, .ok)
  | .getPtr x v => match m.vars[v]? with
    | some (.blob i) => match inside m i with
      | none => (m, .ub)
      | some p => (store (push m p) x, .ok)
    | some .broken => (m, .ub)
    | _ => (m, .typeError)
  | .copyVar v u base fails fails' => match m.vars[u]? with
    | some (.blob i) => match inside m i with
      | none => (m, .ub)
      | some none => if fails' then (m, .badAlloc) else initVar (push m none) v false
      | some (some b) => match look m (some b) with
        | none => (m, .ub)
        | some o => match makeCopy m base o.iov fails with
          | (m, .ok) => if fails' then (drop m, .badAlloc) else initVar m v false
          | r => r
    | some .broken => (m, .ub)
    | _ => (destroyVar m v .other, .ok)
  | .sizeVar v => match m.vars[v]? with
    | some (.blob i) => match inside m i with
      | none => (m, .ub)
      | some p => match look m p with
        | none => (m, .ub)
        | some _ => (m, .ok)
    | some .broken => (m, .ub)
    | _ => (m, .ok)

/-- Any program; exceptions are caught, undefined behaviour ends it (`none`). -/
def run (m : Mach) : List Op → Option Mach
  | [] => some m
  | o :: os => match step m o with
    | (_, .ub) => none
    | (m, _) => run m os

end Verif.BlobLife
