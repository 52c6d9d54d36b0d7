import Verif.Json.Tok
/-!
# Specification: event sequences of one value

Independent of the tokenizer: which callback sequences are the events of exactly one value.
-/

namespace Verif.JsonTok

/-- A callback that delivers a scalar value. -/
def JEv.isScalar : JEv → Bool
  | .int _ | .uint _ | .float _ | .null | .tru | .fals | .str _ => true
  | _ => false

/-- The events of exactly one value: a scalar, a begin/end list around the events of its
elements, or a begin/end map around pairs of a key and the events of exactly one value. -/
inductive IsValue : List JEv → Prop
  | scalar (e : JEv) (h : e.isScalar = true) : IsValue [e]
  | arr (vs : List (List JEv)) (h : ∀ v ∈ vs, IsValue v) :
      IsValue (.arrBegin :: (vs.flatten ++ [.arrEnd]))
  | obj (ps : List (Bytes × List JEv)) (h : ∀ p ∈ ps, IsValue p.2) :
      IsValue (.objBegin :: ((ps.flatMap fun p => .key p.1 :: p.2) ++ [.objEnd]))

/-- The events of exactly one document: one list or one map. -/
def IsDoc (evs : List JEv) : Prop :=
  IsValue evs ∧ (evs.head? = some .arrBegin ∨ evs.head? = some .objBegin)

end Verif.JsonTok
