import Verif.Schema.Places
import Verif.Path.Props
/-!
# Printing what a validation reports (src/Schema.cc 896-992, include/Variant/Schema.h 36-98)

The results with their messages, and `PrettyPrintMessage`.  The messages are any texts.
Simplified: the indentation is a number without a limit (`unsigned` in the code).
-/

namespace Verif.Schema
open Verif PathM

/-- `SchemaError` (include/Variant/Schema.h 59-72). -/
structure SErr where
  says : Bytes
  schema : VPath

/-- `ValidationError` (include/Variant/Schema.h 36-57). -/
inductive VErr where
  | mk (says : Bytes) (data schema : VPath) (subs : List (List VErr × List SErr))

/-- `SchemaResult` (include/Variant/Schema.h 74-93). -/
abbrev Res := List VErr × List SErr

/-- "validation error: " (src/Schema.cc 927). -/
def tValidation : Bytes := [118, 97, 108, 105, 100, 97, 116, 105, 111, 110, 32, 101, 114, 114, 111, 114, 58, 32]
/-- "data path: " (src/Schema.cc 929). -/
def tDataPath : Bytes := [100, 97, 116, 97, 32, 112, 97, 116, 104, 58, 32]
/-- "schema path: " (src/Schema.cc 931, 964). -/
def tSchemaPath : Bytes := [115, 99, 104, 101, 109, 97, 32, 112, 97, 116, 104, 58, 32]
/-- "sub errors:" (src/Schema.cc 934). -/
def tSubErrors : Bytes := [115, 117, 98, 32, 101, 114, 114, 111, 114, 115, 58]
/-- "schema error: " (src/Schema.cc 962). -/
def tSchema : Bytes := [115, 99, 104, 101, 109, 97, 32, 101, 114, 114, 111, 114, 58, 32]

/-- `InsertIndent` (src/Schema.cc 896-898) and a line with its end. -/
def line (n : Nat) (t : Bytes) : Bytes := List.replicate n 9 ++ t ++ [10]

/-- `SchemaError::PrettyPrintMessage` (src/Schema.cc 960-965). -/
def printSErr (n : Nat) (q : SErr) : Bytes := line n (tSchema ++ q.says) ++ line n (tSchemaPath ++ pathString q.schema)

mutual
/-- `ValidationError::PrettyPrintMessage` (src/Schema.cc 925-939). -/
def printErr (n : Nat) : VErr → Bytes
  | .mk m d s subs =>
    line n (tValidation ++ m) ++ line n (tDataPath ++ pathString d) ++ line n (tSchemaPath ++ pathString s) ++
      (match subs with
      | [] => []
      | r :: rs => line n tSubErrors ++ (printErrs (n + 1) r.1 ++ r.2.flatMap (printSErr (n + 1)) ++ printSubs (n + 1) rs))
/-- The errors of a result (src/Schema.cc 985-987). -/
def printErrs (n : Nat) : List VErr → Bytes
  | [] => []
  | e :: es => printErr n e ++ printErrs n es
/-- The loop over the sub errors (src/Schema.cc 935-937). -/
def printSubs (n : Nat) : List (List VErr × List SErr) → Bytes
  | [] => []
  | r :: rs => printErrs n r.1 ++ r.2.flatMap (printSErr n) ++ printSubs n rs
end

/-- `SchemaResult::PrettyPrintMessage` (src/Schema.cc 982-993). -/
def printRes (n : Nat) (r : Res) : Bytes := printErrs n r.1 ++ r.2.flatMap (printSErr n)

mutual
/-- A validation error without its message, as Schema/Report has it. -/
def VErr.note : VErr → Note
  | .mk _ d s subs => .mk d s (notesSubs subs)
def notes : List VErr → List Note
  | [] => []
  | e :: es => e.note :: notes es
def notesSubs : List (List VErr × List SErr) → List (List Note × List VPath)
  | [] => []
  | r :: rs => (notes r.1, r.2.map (·.schema)) :: notesSubs rs
end

/-- A result without its messages. -/
def Res.report (r : Res) : Report := (notes r.1, r.2.map (·.schema))

end Verif.Schema
