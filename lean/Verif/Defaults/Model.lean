import Verif.Val.RefProps
import Verif.Schema.Model
import Verif.Loader.Model
/-!
# Filling in the defaults of a schema (src/Schema.cc 843-894)

The document is a tree and `data` a reference into it (`Verif.VRef`).  The function changes the document only at or below
the place `data` refers to, so every reference the code holds meanwhile stays valid.  The loader is taken to give one
answer for one reference, as in `Verif.Schema.Model`.  A chain of references that never ends overflows the stack: here it
never finishes, whatever the number of nested calls allowed.  `schema["properties"].MapBegin()` turns a null in the
schema into an empty map; this change of the schema is not modelled.
-/

namespace Verif.Defaults
open Verif Schema

/-- The document a call leaves behind and its outcome; `none` if it has not returned yet. -/
abbrev Run := Option (Val × Out Unit)

/-- One statement after another: an exception ends the call. -/
def andThen (r : Run) (f : Val → Run) : Run :=
  match r with
  | some (doc, .ok _) => f doc
  | r => r

/-- A loop whose body may change the document. -/
def forEach {α : Type} (f : Val → α → Run) (doc : Val) : List α → Run
  | [] => some (doc, .ok ())
  | a :: as => andThen (f doc a) fun doc => forEach f doc as

/-- An assignment. -/
def wrote (w : Wr) : Run :=
  match w with
  | (doc, none) => some (doc, .ok ())
  | (doc, some e) => some (doc, .throw e)

/-- What is at the place a reference refers to, if it exists. -/
def valueAt (doc : Val) (r : VRef) : Option Val :=
  match refExists doc r, (refRead doc r).2 with
  | true, .ok v => some v
  | _, _ => none

/-- `!data.Exists() || data.IsNull()` (859) -/
def missingOrNull : Option Val → Bool
  | none => true
  | some .null => true
  | _ => false

/-- `!data.Exists() || data.IsMap()` (863), with `.list` instead of `.map` (870) -/
def missingOr (t : Ty) : Option Val → Bool
  | none => true
  | some v => v.ty = t

/-- Go on with `data.At(e)` (867, 874, 877). -/
def below (doc : Val) (r : VRef) (e : PathElem) (f : Val → VRef → Run) : Run :=
  match refAt doc r e none with
  | (doc', .ok r') => f doc' r'
  | (doc', .throw er) => some (doc', .throw er)
  | (doc', .ub) => some (doc', .ub)

/-- Following `$ref`, if it is a string (856-858). -/
def atRef (get : Bytes → Out Val) (m : List (Bytes × Val)) (doc : Val) (f : Val → Run) : Run :=
  match Loader.strAt m kRef with
  | some u => match get u with
    | .ok s => f s
    | .throw e => some (doc, .throw e)
    | .ub => some (doc, .ub)
  | none => some (doc, .ok ())

/-- The default to use for what is at `data` (859). -/
def ownDefault (m : List (Bytes × Val)) (x : Option Val) : Option Val :=
  if missingOrNull x then AMap.get m kDefault else none

/-- The loop over `schema["properties"]` (863-869); `MapBegin` throws unless it is a map or null. -/
def atProperties (m : List (Bytes × Val)) (doc : Val) (x : Option Val) (f : Val → Bytes × Val → Run) : Run :=
  if missingOr .map x then
    match AMap.get m kProperties with
    | some (.map ps) => forEach f doc ps
    | some .null => some (doc, .ok ())
    | some _ => some (doc, .throw .unableToConvert)
    | none => some (doc, .ok ())
  else some (doc, .ok ())

/-- The elements of `schema["items"]` that a list has, with their places (872-875); or the only schema there, for the
first place (877). -/
def itemsOf (v : Val) : List (Val × UInt32) :=
  match v with
  | .list ss => (ss.take (ss.length % 2 ^ 32)).zipIdx.map fun x => (x.1, UInt32.ofNat x.2)
  | v => [(v, 0)]

/-- The loop over `schema["items"]` (870-879). -/
def atItems (m : List (Bytes × Val)) (doc : Val) (x : Option Val) (f : Val → Val × UInt32 → Run) : Run :=
  if missingOr .list x then
    match AMap.get m kItems with
    | some ss => forEach f doc (itemsOf ss)
    | none => some (doc, .ok ())
  else some (doc, .ok ())

/-- `schema[k]` of `allOf`, `oneOf` and `anyOf`, if it is a list (846). -/
def membersOf (m : List (Bytes × Val)) (k : Bytes) : List Val :=
  match AMap.get m k with
  | some (.list ss) => ss
  | _ => []

/-- `AddSchemaDefaultsImpl` and `AddSchemaListDefaultsImpl` (src/Schema.cc 845-882); the first argument bounds the
number of nested calls. -/
def fill (get : Bytes → Out Val) : Nat → Val → Val → VRef → Run
  | 0, _, _, _ => none
  | n + 1, .map m, doc, r =>
    andThen (atRef get m doc fun s => fill get n s doc r) fun doc =>
    match ownDefault m (valueAt doc r) with
    | some d => wrote (refAssign doc r d)                                           -- 860-861
    | none =>
      andThen (atProperties m doc (valueAt doc r) fun doc p => below doc r (.key p.1) (fill get n p.2)) fun doc =>
      andThen (atItems m doc (valueAt doc r) fun doc s => below doc r (.index s.2) (fill get n s.1)) fun doc =>
      forEach (fun doc s => fill get n s doc r) doc
        (membersOf m kAllOf ++ membersOf m kOneOf ++ membersOf m kAnyOf)            -- 880-882
  | _ + 1, _, doc, _ => some (doc, .ok ())                                         -- 855

/-! ## The call -/

/-- "$schema" (src/Schema.cc 887) -/
def kSchema : Bytes := [36, 115, 99, 104, 101, 109, 97]

/-- The schema to use (src/Schema.cc 887-892): for a null one, a reference to the document's own `$schema`; for a
string, what the loader has. -/
def theSchema (get : Bytes → Out Val) (schema doc : Val) : Out Val :=
  let own := match schema, doc with
    | .null, .map m => match AMap.get m kSchema with
      | some v => Val.map [(kRef, v)]
      | none => schema
    | _, _ => schema
  match own with
  | .str u => get u
  | s => .ok s

/-- `AddSchemaDefaults` (src/Schema.cc 885-894) on a whole document.  `AddSchema` normalises the schema it is given, and
the local loader, which knows it under the empty address, answers before the one given (`base`). -/
def addSchemaDefaults (p : Nat) (builtin : Bytes × Val) (base : List Loader.Layer) (fuel : Nat) (schema doc : Val) : Run :=
  match theSchema (fun u => (Loader.getSchema p (⟨[builtin], none⟩ :: base) u).2) schema doc with
  | .ok s => fill (fun u => (Loader.getSchema p (Loader.localLayer builtin s :: base) u).2) fuel
      (Loader.norm (Uri.resolveURI [] []) s) doc .root
  | .throw e => some (doc, .throw e)
  | .ub => some (doc, .ub)

end Verif.Defaults
