import Verif.Json.Driver
import Verif.LoadAll.Props
/-!
# C86 Iterating over JSON
-/

namespace Verif.JsonDrv
open Verif
open Verif.LoadAll (Source Values Rest)

/-- The state of a JSON parser between two calls of `ParseVariant`: the input left, whether its status is `S_DONE`, and
whether it is `S_ERROR`.  (src/JSONParser.cc 165-205: in the first case `Run` returns 1, in the second it throws; after
an exception of a handler the status is `S_OK` or `S_BEGIN` and the old handlers are used, which is undefined:
`broken`.) -/
structure Between where
  input : List Bytes
  done : Bool
  broken : Bool

/-- The JSON parser as the iterator uses it. -/
def source (fo : FloatOps) : Source Between :=
  ⟨Between.done, fun p =>
    if p.done then some (p, .ok .null)
    else if p.broken then some (p, .ub)
    else
      match deserialize fo p.input with
      | .ok (v, left) => some (⟨left, true, false⟩, .ok v)
      | .throw e => some (⟨p.input, false, true⟩, .throw e)
      | .ub => some (⟨p.input, false, true⟩, .ub)⟩

/-- C86, finding: iterating over JSON visits the first document only, whatever follows it. -/
theorem json_first_only (fo : FloatOps) (blocks left : List Bytes) (v : Val) (h : deserialize fo blocks = .ok (v, left)) :
    Values (source fo) ⟨blocks, false, false⟩ [v] :=
  .some (q := ⟨left, true, false⟩) rfl (by simp only [source, Bool.false_eq_true, if_false, h]) (.done rfl)

/-- `[] [1]` is such an input. -/
example (fo : FloatOps) : ∃ left, deserialize fo [[91, 93, 32, 91, 49, 93]] = .ok (.list [], left) := ⟨_, rfl⟩

end Verif.JsonDrv
