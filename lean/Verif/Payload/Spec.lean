import Verif.Val.Ops
import Verif.Json.RoundSpec
/-!
# Vocabulary for the payload round trip (C45)
-/

namespace Verif.Payload
open Verif Verif.JsonTok

/-- The value without what is at a path: a key is removed from its map, a list element becomes
null. -/
def without : Val → VPath → Val
  | _, [] => .null
  | v, e :: q => match getElem? v e with
    | none => v
    | some c => match e, q, v with
      | .key k, [], .map m => .map (AMap.erase m k)
      | e, q, v => putElem v e (without c q)

/-- Following the path one meets only maps, until its end or until a key is missing. -/
def MapsTo : Val → VPath → Prop
  | _, [] => True
  | .map m, .key k :: q => match AMap.get m k with
    | some c => MapsTo c q
    | none => True
  | _, _ :: _ => False

/-- The keys of a path can be carried by JSON text. -/
def PlainKeys (p : VPath) : Prop := ∀ k, PathElem.key k ∈ p → PlainStr k

end Verif.Payload
