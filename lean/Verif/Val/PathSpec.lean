import Verif.Val.Basic
/-! # Vocabulary for the statements about paths -/

namespace Verif

/-- Two paths go different ways: neither extends the other. -/
def Diverge (p q : VPath) : Prop := ¬ p <+: q ∧ ¬ q <+: p

/-- The container type an element belongs to: a list for an index, a map for a key. -/
def PathElem.containerTy : PathElem → Ty
  | .key _ => .map
  | .index _ => .list

/-- The path does not use the largest 32-bit index. -/
def NoMaxIndex (p : VPath) : Prop := PathElem.index 0xFFFFFFFF ∉ p

end Verif
