import Verif.Val.Compare
import Verif.Val.Ops
/-!
# Recursive difference and update (src/Extensions.cc 215-279), on value trees
-/

namespace Verif.Ext
open Verif

/-- Null or an empty map: what `RDiff` removes from the difference (src/Extensions.cc 250-251). -/
def blank : Val → Bool
  | .null => true
  | .map [] => true
  | _ => false

/-- `RDiff` (src/Extensions.cc 215-262) into a difference that starts as an empty map, which is how
`RDiff(base, compare)` (216) and the recursive call (243) start it.  `rdiffMap` is the loop over
the entries of `compare` (232-255); the difference built so far is `acc`. -/
def rdiff (p : Nat) (base : Val) : Val → Val
  | .map n => match base with
    | .map m => .map (rdiffMap p m n [])
    | _ => .map (deepCopyMap n)
  | c => if veq p base c then .map [] else deepCopy c
where
  rdiffMap (p : Nat) (m : List (Bytes × Val)) : List (Bytes × Val) → List (Bytes × Val) → List (Bytes × Val)
    | [], acc => acc
    | x :: r, acc =>
      match AMap.get m x.1 with
      | none => rdiffMap p m r (AMap.set acc x.1 (deepCopy x.2))                        -- 236-239
      | some b =>
        let acc := if veq p b x.2 then acc                                              -- 242-246
          else AMap.set acc x.1 (rdiff p b x.2)
        let acc := match AMap.get acc x.1 with                                          -- 249-254
          | some d => if blank d then AMap.erase acc x.1 else acc
          | none => acc
        rdiffMap p m r acc

/-- `RUpdate` (src/Extensions.cc 264-279) on an existing `base`.  `rupdateMap` is the loop (270-272);
`At` with a default (src/Variant.cc 1296-1305) stores an empty map under a missing key first. -/
def rupdate (base : Val) : Val → Val
  | .null => base
  | .map u => match base with
    | .map b => .map (rupdateMap b u)
    | _ => .map (deepCopyMap u)
  | u => deepCopy u
where
  rupdateMap (b : List (Bytes × Val)) : List (Bytes × Val) → List (Bytes × Val)
    | [] => b
    | x :: r => rupdateMap (AMap.set b x.1 (rupdate ((AMap.get b x.1).getD (.map [])) x.2)) r

end Verif.Ext
