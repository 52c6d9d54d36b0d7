import Verif.Ref.Spec
/-!
# The value of an object: what is in the memory, as a tree
-/

namespace Verif.Ref
open Verif

/-- What is in a storage, with the contents of its elements in place of the elements. -/
inductive Content where
  | str (b : Bytes)
  | list (xs : List Slot)
  | map (m : List (Bytes × Slot))
  | blob (segs : List Bytes)

def contentOf (sl : Nat → Slot) : Cell → Content
  | .str b => .str b
  | .list _ es => .list (es.map sl)
  | .map m => .map (m.map fun p => (p.1, sl p.2))
  | .blob b => .blob b

def content (st : St) (s : Nat) : Content := contentOf st.sl (st.store s).cell

mutual
/-- An object with these contents is this value. -/
def SlotIs (c : Nat → Content) : Val → Slot → Prop
  | .null, sl => sl = .null
  | .bool b, sl => sl = .sca (.bool b)
  | .int i, sl => sl = .sca (.int i)
  | .uint u, sl => sl = .sca (.uint u)
  | .flt f, sl => sl = .sca (.flt f)
  | .str b, sl => ∃ s, sl = .str s ∧ c s = .str b
  | .list vs, sl => ∃ s xs, sl = .list s ∧ c s = .list xs ∧ AllIs c vs xs
  | .map m, sl => ∃ s ms, sl = .map s ∧ c s = .map ms ∧ MapIs c m ms
  | .blob b, sl => ∃ s, sl = .blob s ∧ c s = .blob b
def AllIs (c : Nat → Content) : List Val → List Slot → Prop
  | [], xs => xs = []
  | v :: vs, xs => ∃ x r, xs = x :: r ∧ SlotIs c v x ∧ AllIs c vs r
def MapIs (c : Nat → Content) : List (Bytes × Val) → List (Bytes × Slot) → Prop
  | [], ms => ms = []
  | p :: m, ms => ∃ x r, ms = (p.1, x) :: r ∧ SlotIs c p.2 x ∧ MapIs c m r
end

/-- The object is this value. -/
def Is (st : St) (x : Nat) (v : Val) : Prop := SlotIs (content st) v (st.sl x)

/-- `z` contains neither `t` nor the elements of `t`, and does not have the same elements as `t`. -/
structure Outside (st : St) (z t : Nat) : Prop where
  home : ∀ s h, (st.sl z).sto = some s → (st.obj t).home = some h → ¬ Below st s h
  sto : ∀ s h, (st.sl z).sto = some s → (st.sl t).sto = some h → ¬ Below st s h

/-- `z` is not `t` and does not contain it. -/
structure Beside (st : St) (z t : Nat) : Prop where
  ne : z ≠ t
  home : ∀ s h, (st.sl z).sto = some s → (st.obj t).home = some h → ¬ Below st s h

/-- `z` contains neither `t` nor the elements of `t`, and is neither `t` nor one of its elements. -/
structure Apart (st : St) (z t : Nat) : Prop extends Outside st z t where
  ne : z ≠ t
  elem : ∀ s, (st.sl t).sto = some s → (st.obj z).home ≠ some s

/-- `Clear` of a value. -/
def clearVal : Val → Val
  | .str _ => .str []
  | .list _ => .list []
  | .map _ => .map []
  | _ => .null

/-- The value of a scalar. -/
def Sca.val : Sca → Val
  | .bool b => .bool b
  | .int i => .int i
  | .uint u => .uint u
  | .flt f => .flt f

/-- The value of a literal. -/
def Lit.val : Lit → Val
  | .null => .null
  | .sca c => c.val
  | .str b => .str b
  | .list => .list []
  | .map => .map []
  | .blob b => .blob b

/-- How an operation ends: normally, or with an exception. -/
def Ends (r : Res α) (a : α) (err : Option Err) (st : St) : Prop :=
  match err with
  | none => r = .ok a st
  | some e => r = .thr e st

end Verif.Ref
