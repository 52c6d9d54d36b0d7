import Verif.Loader.Lookup
import Verif.Schema.Meta
/-!
# `SchemaValidate` with its own loader (src/Schema.cc 826-841)

`Schema/Model.lean` leaves the loader open.  Here it is the one the function makes: a loader with the schema of schemas
(src/SchemaLoader.cc 77-85) and the schema given, on top of the caller's loaders.  Every lookup starts from the caller's
loaders as they were at the beginning: what a missing handler adds during one lookup is not carried over to the next.
-/

namespace Verif.Schema
open Verif

/-- The caller's schema, before the loader is asked (src/Schema.cc 829-831). -/
def namedSchema (s d : Val) : Val :=
  match s, d with
  | .null, .map dm => match AMap.get dm kSchema with
    | some r => .map [(kRef, r)]
    | none => s
  | _, _ => s

/-- The schema validated with, before `AddSchema` (src/Schema.cc 828-834). -/
def chosenSchema (p : Nat) (builtin : Bytes × Val) (bases : List Loader.Layer) (s d : Val) : Out Val :=
  match namedSchema s d with
  | .str u => (Loader.getSchema p (⟨[builtin], none⟩ :: bases) u).2
  | s => .ok s

/-- The loader after `AddSchema("", schema)` (835). -/
def lookup (p : Nat) (builtin : Bytes × Val) (bases : List Loader.Layer) (s : Val) (u : Bytes) : Out Val :=
  (Loader.getSchema p (Loader.localLayer builtin s :: bases) u).2

/-- What the caller gets (836-840). -/
def outcome : M → Option (Out Result)
  | none => none
  | some (.go se) => some (.ok ⟨false, se⟩)
  | some (.stop e se) => some (.ok ⟨e, se⟩)
  | some (.exn e) => some (.throw e)
  | some .ub => some .ub

/-- `SchemaValidate(schema, data, loader)` (src/Schema.cc 826-841).  `builtin` is what every loader starts with; `E.loader` is
not used.  `AddSchema` normalises the schema in place, so that is what is validated with. -/
def schemaValidate (E : Env) (builtin : Bytes × Val) (bases : List Loader.Layer) (s d : Val) : Option (Out Result) :=
  match chosenSchema E.p builtin bases s d with
  | .throw e => some (.throw e)
  | .ub => some .ub
  | .ok s => outcome (validate { E with loader := lookup E.p builtin bases s } (recursionLimit + 1) 0 (Loader.norm [] s) d)

/-- The schema of schemas as every loader has it (src/SchemaLoader.cc 46-50, 77-85); see `static_data`. -/
def metaEntry : Bytes × Val := (metaUri, metaSchema metaUri)

/-- "http://json-schema.org/draft-04/schema#" -/
def metaName : Val := .str (metaUri ++ [35])

end Verif.Schema
