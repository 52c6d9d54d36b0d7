import Verif.Uri.Model
import Verif.Val.Ops
/-!
# What a user of the schema loader relies on

"id", "$ref" and "enum" are spelled out as bytes.
-/

namespace Verif.Loader
open Verif Uri

/-- The string a map has under a key. -/
def StrAt (m : List (Bytes × Val)) (k s : Bytes) : Prop := AMap.get m k = some (.str s)

/-- A document at `uri` may define `u`: `u` is `uri` itself, or goes on with a fragment or a query, or lies below it
when `uri` ends with a slash. -/
def Owns (uri u : Bytes) : Prop :=
  u = uri ∨ ∃ rest, u = uri ++ rest ∧ (uri.getLast? = some 47 ∨ rest.head? = some 35 ∨ rest.head? = some 63)

/-- A value lies inside another, through maps only, and not inside an "enum". -/
inductive Within : Val → Val → Prop
  | here (v : Val) : Within v v
  | step {m : List (Bytes × Val)} {k : Bytes} {x w : Val} :
      (k, x) ∈ m → k ≠ [101, 110, 117, 109] → Within x w → Within (.map m) w

/-- The base URI inside a map: its "id" resolved against the base around it, if it has one. -/
def Base (uri : Bytes) (m : List (Bytes × Val)) (b : Bytes) : Prop :=
  (∃ i, StrAt m [105, 100] i ∧ b = resolveURI uri i) ∨ ((∀ i, ¬ StrAt m [105, 100] i) ∧ b = uri)

/-- A path leads to a place where schemas can be, and the base URI there: the path goes neither into an "enum" nor
into a map with a "$ref" text. -/
inductive Place : Bytes → Val → VPath → Bytes → Val → Prop
  | here (uri : Bytes) (v : Val) : Place uri v [] uri v
  | key {uri b b' : Bytes} {m : List (Bytes × Val)} {k : Bytes} {x w : Val} {p : VPath} :
      (∀ r, ¬ StrAt m [36, 114, 101, 102] r) → Base uri m b → AMap.get m k = some x → k ≠ [101, 110, 117, 109] →
      Place b x p b' w → Place uri (.map m) (.key k :: p) b' w
  | item {uri b' : Bytes} {xs : List Val} {i : UInt32} {x w : Val} {p : VPath} :
      xs[i.toNat]? = some x → Place uri x p b' w → Place uri (.list xs) (.index i :: p) b' w

end Verif.Loader
