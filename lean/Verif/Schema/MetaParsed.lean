import Lean
import Verif.Schema.Meta
/-!
# The text in the source is the schema of the model

The text has 4375 characters; parsing it is a computation that only the kernel does in reasonable memory, so
`kernel_refl` leaves the comparison of the two sides of an equation to it.
-/

namespace Verif.Schema
open Verif

open Lean Elab Tactic in
/-- Close a goal `a = b` in `Type` with `Eq.refl a`; the kernel checks it. -/
elab "kernel_refl" : tactic => do
  let g ← getMainGoal
  let t ← instantiateMVars (← g.getType)
  let some (α, a, _) := t.eq? | throwError "not an equation"
  g.assign (mkApp2 (mkConst ``Eq.refl [1]) α a)

theorem meta_read (fo : JsonDrv.FloatOps) : readAs (JsonDrv.deserialize fo [metaText]) (metaSchema []) = true := by
  kernel_refl

/-- `SchemaStaticData` holds the schema of schemas under its URI. -/
theorem static_data (fo : JsonDrv.FloatOps) : schemaStaticData fo = .ok (metaUri, metaSchema metaUri) := static_of (meta_read fo)

end Verif.Schema
