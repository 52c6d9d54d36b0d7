import Verif.Args.SchemaVal
import Verif.Args.Desc
import Verif.Schema.Whole
/-!
# `ArgParse::Validate` (src/ArgParse.cc 734-739)
-/

namespace Verif.Args
open Verif Schema

/-- `ArgParse::Validate` (src/ArgParse.cc 734-739) with the schema of src/argparse-schema.yaml (38-44): the exception has the
messages as its text, which is not modelled.  `metaEntry` is the entry of the default loader; the schema names no other document.
`ord` is the order of the members' addresses, as for `getDescription`. -/
def validateParser (E : Env) (ord : List Int32 → List Int32) (P : Parser) : Out Unit :=
  match getDescription ord P with
  | .ok d => match schemaValidate E metaEntry [] argSchema d with
    | some (.ok r) => if r.errors || r.schemaErrors then .throw .runtime else .ok ()
    | some (.throw e) => .throw e
    | some .ub => .ub
    | none => .ub
  | .throw e => .throw e
  | .ub => .ub

end Verif.Args
