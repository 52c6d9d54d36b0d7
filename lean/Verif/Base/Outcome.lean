/-!
# Outcomes

The C++ code can return normally, throw an exception, or run into undefined behaviour.
The three are kept apart in the model.
-/

namespace Verif

/-- The exception kinds thrown by the modelled code (`include/Variant/Exceptions.h`, plus
the standard library's). -/
inductive Err where
  | unableToConvert
  | unexpectedType
  | unknownType
  | key
  | outOfRange
  | invalidReference
  | badPath
  | runtime
  | parse
  | emit
  | badAlloc
  | jsonPointer
  | invalidArgument
  | invalidOperation
  | notNumeric
  deriving DecidableEq, Repr

/-- Outcome of running a modelled function. -/
inductive Out (α : Type u) where
  | ok (a : α)
  | throw (e : Err)
  | ub
  deriving DecidableEq, Repr

namespace Out

def bind (x : Out α) (f : α → Out β) : Out β :=
  match x with
  | ok a => f a
  | throw e => throw e
  | ub => ub

instance : Monad Out where
  pure := ok
  bind := bind

@[simp] theorem pure_eq (a : α) : (pure a : Out α) = ok a := rfl
@[simp] theorem bind_ok (a : α) (f : α → Out β) : (Out.ok a >>= f) = f a := rfl
@[simp] theorem bind_throw (e : Err) (f : α → Out β) : (Out.throw e >>= f) = Out.throw e := rfl
@[simp] theorem bind_ub (f : α → Out β) : ((Out.ub : Out α) >>= f) = Out.ub := rfl
@[simp] theorem map_ok (f : α → β) (a : α) : (f <$> Out.ok a) = Out.ok (f a) := rfl
@[simp] theorem map_throw (f : α → β) (e : Err) : (f <$> (Out.throw e : Out α)) = Out.throw e := rfl
@[simp] theorem map_ub (f : α → β) : (f <$> (Out.ub : Out α)) = Out.ub := rfl

theorem bind_eq_ok {x : Out α} {f : α → Out β} {b : β} :
    (x >>= f) = ok b ↔ ∃ a, x = ok a ∧ f a = ok b := by
  cases x <;> simp

theorem bind_assoc' (x : Out α) (f : α → Out β) (g : β → Out γ) :
    ((x >>= f) >>= g) = (x >>= fun a => f a >>= g) := by
  cases x <;> rfl

instance : LawfulMonad Out := LawfulMonad.mk'
  (id_map := by intro α x; cases x <;> rfl)
  (pure_bind := by intros; rfl)
  (bind_assoc := by intro α β γ x f g; cases x <;> rfl)

/-- The outcome is not undefined behaviour. -/
def defined : Out α → Prop
  | ub => False
  | _ => True

end Out

/-- Byte strings (`std::string` contents, stream contents). -/
abbrev Bytes := List UInt8

end Verif
