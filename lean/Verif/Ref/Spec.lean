import Verif.Ref.Model
/-!
# References: what the properties are about
-/

namespace Verif.Ref
open Verif

abbrev St.live (st : St) (x : Nat) : Prop := (st.obj x).alive = true
abbrev St.liveS (st : St) (s : Nat) : Prop := (st.store s).alive = true
abbrev St.sl (st : St) (x : Nat) : Slot := (st.obj x).slot
abbrev St.el (st : St) (s : Nat) : List Nat := (st.store s).cell.elems

/-- The object a reference is about. -/
def Slot.tgt : Slot → Option Nat
  | .ref t => some t
  | .proxy t _ _ => some t
  | _ => none

/-- The element a value has at an index or key. -/
def elem? (st : St) (t : Nat) (e : PathElem) : Option Nat :=
  match st.sl t, e with
  | .list s, .index i => match (st.store s).cell with | .list _ es => es[i.toNat]? | _ => none
  | .map s, .key k => match (st.store s).cell with | .map m => AMap.get m k | _ => none
  | _, _ => none

/-- What a path leads to. -/
def path? (st : St) (t : Nat) : VPath → Option Nat
  | [] => some t
  | e :: p => (elem? st t e).bind fun c => path? st c p

/-- A value of this kind has elements of this kind; null becomes a container when it gets an element. -/
def Takes : Slot → PathElem → Bool
  | .null, _ => true
  | .list _, .index _ => true
  | .map _, .key _ => true
  | _, _ => false

/-- A list cannot be made to have this index: it is the largest, and the number of elements overflows. -/
def PathElem.Fine : PathElem → Prop
  | .index i => i ≠ 0xFFFFFFFF
  | .key _ => True

/-- A value that has no such element can be given one. -/
def Room (st : St) (t : Nat) : PathElem → Prop
  | .index i => i ≠ 0xFFFFFFFF ∧ (st.sl t = .null ∨ ∃ s, st.sl t = .list s)
  | .key _ => st.sl t = .null ∨ ∃ s, st.sl t = .map s

/-- The path exists or can be created: what is there of it ends at a value that can be given the next element. -/
def Creatable (st : St) (t : Nat) : VPath → Prop
  | [] => True
  | e :: p => match elem? st t e with
    | some c => Creatable st c p
    | none => Room st t e ∧ ∀ e' ∈ p, PathElem.Fine e'

/-- Storage `a` has an element that owns `b`. -/
def Edge (st : St) (a b : Nat) : Prop := st.liveS a ∧ ∃ e, e ∈ st.el a ∧ (st.sl e).sto = some b

/-- Storage `a` contains `b`, or is `b`. -/
inductive Below (st : St) : Nat → Nat → Prop
  | refl (a) : Below st a a
  | head {a b c} : Edge st a b → Below st b c → Below st a c

/-- Some value contains itself. -/
def Cyc (st : St) : Prop := ∃ a b, Edge st a b ∧ Below st b a

/-- An unresolved reference. -/
def IsProxy (st : St) (x : Nat) : Prop := ∃ t p k, st.sl x = .proxy t p k

/-- An unresolved reference whose target lies inside what the target was when the reference was made: the reference itself
may be all that keeps its target. -/
def BadProxy (st : St) (p : Nat) : Prop :=
  ∃ t path k h, st.sl p = .proxy t path (some k) ∧ st.live t ∧ (st.obj t).home = some h ∧ Below st k h

/-- A reference to something without storage of its own: null, a truth value or a number. -/
def ScalarRef (st : St) (y : Nat) : Prop := IsProxy st y ∨ ∃ t, st.sl y = .ref t ∧ (st.sl t).sto = none

/-- The unresolved reference `q` may be all that keeps what `o` refers to. -/
def Keeps (st : St) (q o : Nat) : Prop :=
  ∃ t' p k t h, st.sl q = .proxy t' p (some k) ∧ (st.sl o).tgt = some t ∧ (st.obj t).home = some h ∧ Below st k h

/-- The operation destroys the variable or makes it refer to something else. -/
def Op.Turns (op : Op) (v : Nat) : Prop := op = .del v ∨ ∃ x, op = .reassign v x

/-- The variables an operation uses. -/
def Op.uses : Op → List Nat
  | .var _ => []
  | .del _ => []
  | .put x _ => [x]
  | .assign x y => [x, y]
  | .mkRef _ _ => []
  | .mkProxy _ _ _ => []
  | .at _ x _ => [x]
  | .atPath _ x _ => [x]
  | .atPathDef _ x _ y => [x, y]
  | .reassign _ _ => []
  | .set x _ y => [x, y]
  | .append x y => [x, y]
  | .erase x _ => [x]
  | .clear x => [x]
  | .copy _ y => [y]
  | .look x => [x]
  | .exists _ => []

/-- What makes an operation undefined, in a state where no value contains itself: an unresolved reference is used although
its target lies in what only the reference may keep; or an unresolved reference is assigned the scalar another reference
refers to; or an unresolved reference is reassigned to itself or to what only it may keep. -/
def Hazard (st : St) (op : Op) : Prop :=
  (∃ v o, v ∈ op.uses ∧ st.env v = some o ∧ BadProxy st o) ∨
  (∃ x y o q, op = .assign x y ∧ st.env x = some o ∧ st.env y = some q ∧ IsProxy st o ∧ ScalarRef st q) ∨
  (∃ r x q o, op = .reassign r x ∧ st.env r = some q ∧ st.env x = some o ∧ (Keeps st q o ∨ q = o ∧ IsProxy st q))

/-- The variables an operation is about. -/
def Op.vars : Op → List Nat
  | .reassign r x => [r, x]
  | op => op.uses

/-- A part of a program, from one state to another, in which no value contains itself before the operations.  Exceptions
are caught and the program goes on. -/
inductive Steps (grow : Nat → Nat → Nat) : St → List Op → St → Prop
  | nil (st) : Steps grow st [] st
  | ok {st op v st1 ops st'} : ¬ Cyc st → step grow op st = .ok v st1 → Steps grow st1 ops st' → Steps grow st (op :: ops) st'
  | thr {st op e st1 ops st'} : ¬ Cyc st → step grow op st = .thr e st1 → Steps grow st1 ops st' → Steps grow st (op :: ops) st'

/-- The states programs reach. -/
def Runs (grow : Nat → Nat → Nat) (st : St) : Prop := ∃ ops, Steps grow St.init ops st

/-! ## Checking examples -/

/-- Storage is older than what it contains. -/
def St.tidy (st : St) : Bool := (List.range st.nStore).all fun a => (st.el a).all fun e =>
  match (st.sl e).sto with
  | some b => decide (a < b)
  | none => true

/-- Run a program as long as storage is older than what it contains. -/
def go (grow : Nat → Nat → Nat) : List Op → St → Option St
  | [], st => some st
  | op :: ops, st =>
    if st.tidy then
      match step grow op st with
      | .ok _ st1 => go grow ops st1
      | .thr _ st1 => go grow ops st1
      | .ub => none
    else none

end Verif.Ref
