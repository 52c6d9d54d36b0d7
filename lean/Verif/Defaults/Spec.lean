import Verif.Val.Ops
import Verif.Val.PathSpec
import Verif.Schema.Words
/-!
# Vocabulary for the statements about filling in defaults
-/

namespace Verif.Defaults
open Verif Schema

/-- The same value, or containers of the same kind. -/
def Same (v v' : Val) : Prop := v'.ty = v.ty ∧ (v.ty ≠ .list → v.ty ≠ .map → v' = v)

/-- Every value of a document other than null is in the other one at the same place: a scalar the same, a container as
a container of the same kind.  Where there was a null there is something. -/
def Keeps (doc doc' : Val) : Prop :=
  ∀ q v, getPath? doc q = some v → ∃ v', getPath? doc' q = some v' ∧ (v = .null ∨ Same v v')

/-- The keywords that list schemas for the same place. -/
def combining : List Bytes := [kAllOf, kOneOf, kAnyOf]

/-- The schema `s` gives the default `d` for the place `p` of a document: directly, below `properties` and `items`
(a single schema in `items` counts for the first element only), in a schema it combines or one it refers to. -/
inductive DefaultAt (get : Bytes → Out Val) : Val → VPath → Val → Prop
  | own {m d} : AMap.get m kDefault = some d → DefaultAt get (.map m) [] d
  | ref {m u s p d} : AMap.get m kRef = some (.str u) → get u = .ok s → DefaultAt get s p d → DefaultAt get (.map m) p d
  | property {m ps k s p d} : AMap.get m kProperties = some (.map ps) → (k, s) ∈ ps → DefaultAt get s p d →
      DefaultAt get (.map m) (.key k :: p) d
  | item {m ss s p d} {i : Nat} : AMap.get m kItems = some (.list ss) → ss[i]? = some s → i < 2 ^ 32 - 1 →
      DefaultAt get s p d → DefaultAt get (.map m) (.index (UInt32.ofNat i) :: p) d
  | items {m s p d} : AMap.get m kItems = some s → s.ty ≠ .list → DefaultAt get s p d →
      DefaultAt get (.map m) (.index 0 :: p) d
  | member {m k ss s p d} : k ∈ combining → AMap.get m k = some (.list ss) → s ∈ ss → DefaultAt get s p d →
      DefaultAt get (.map m) p d

/-- Where what is in a document `doc'` after filling in defaults can come from: the value at `q` was there before, is part
of a default, is a container on the way to the place of a default, or is a null before such a place in a list. -/
inductive Origin (dflt : VPath → Val → Prop) (doc : Val) (q : VPath) (v' : Val) : Prop
  | old {v} : getPath? doc q = some v → Same v v' → Origin dflt doc q v'
  | inside {p r d w} : dflt p d → q = p ++ r → getPath? d r = some w → Same w v' → Origin dflt doc q v'
  | way {e r d} : dflt (q ++ e :: r) d → v'.ty = e.containerTy → Origin dflt doc q v'
  | padding {pre r d} {i j : UInt32} : dflt (pre ++ .index i :: r) d → q = pre ++ [.index j] → j < i → v' = .null →
      Origin dflt doc q v'

/-- A place reached through keys of maps only. -/
def KeysOnly (p : VPath) : Prop := ∀ e ∈ p, ∃ k, e = .key k

/-- There is a value other than null at the place. -/
def Present (doc : Val) (p : VPath) : Prop := ∃ v, getPath? doc p = some v ∧ v ≠ .null

/-- Why nothing may be filled in at `p`: somewhere above it (`q`) there is a value that is neither null nor a map, or the
document had a null there, or the schema has a default for that place or one above it. -/
def Blocked (get : Bytes → Out Val) (s doc doc' : Val) (p : VPath) : Prop :=
  ∃ q, q <+: p ∧ q ≠ p ∧
    ((∃ v, getPath? doc' q = some v ∧ v.ty ≠ .map ∧ v ≠ .null) ∨ getPath? doc q = some .null ∨
     ∃ q' d', q' <+: q ∧ DefaultAt get s q' d')

/-- The schemas that filling in the defaults of `s` may look at. -/
inductive Reaches (get : Bytes → Out Val) : Val → Val → Prop
  | self {s} : Reaches get s s
  | ref {m u s t} : AMap.get m kRef = some (.str u) → get u = .ok s → Reaches get s t → Reaches get (.map m) t
  | property {m ps k s t} : AMap.get m kProperties = some (.map ps) → (k, s) ∈ ps → Reaches get s t → Reaches get (.map m) t
  | item {m ss s t} : AMap.get m kItems = some (.list ss) → s ∈ ss → Reaches get s t → Reaches get (.map m) t
  | items {m s t} : AMap.get m kItems = some s → Reaches get s t → Reaches get (.map m) t
  | member {m k ss s t} : k ∈ combining → AMap.get m k = some (.list ss) → s ∈ ss → Reaches get s t → Reaches get (.map m) t

/-- A schema that cannot be used: its reference leads nowhere, or its properties are no map. -/
def Broken (get : Bytes → Out Val) (s : Val) : Prop :=
  ∃ m, s = .map m ∧
    ((∃ u, AMap.get m kRef = some (.str u) ∧ ∀ t, get u ≠ .ok t) ∨
     (∃ v, AMap.get m kProperties = some v ∧ v.ty ≠ .map ∧ v.ty ≠ .null))

/-- Neither null nor a container. -/
def Scalar (v : Val) : Prop := v.ty ≠ .null ∧ v.ty ≠ .list ∧ v.ty ≠ .map

end Verif.Defaults
