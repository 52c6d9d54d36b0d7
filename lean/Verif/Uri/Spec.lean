import Verif.Base.Outcome
/-!
# Specification for URIs: RFC 3986

Written from RFC 3986 sections 2.1, 5.2 and 5.3, not from the code.
-/

namespace Verif.Uri
open Verif

/-- Value of a hexadecimal digit. -/
def HexDigit (c : UInt8) (n : Nat) : Prop :=
  (∃ k, k < 10 ∧ c.toNat = 48 + k ∧ n = k) ∨ (∃ k, k < 6 ∧ (c.toNat = 65 + k ∨ c.toNat = 97 + k) ∧ n = 10 + k)

/-- `t` is a percent-encoding of `s` (section 2.1): every byte is written as it is, unless it is a
percent sign, or as a percent sign and two hexadecimal digits of either case. -/
inductive PercentEncodes : Bytes → Bytes → Prop
  | nil : PercentEncodes [] []
  | plain {c : UInt8} {s t : Bytes} : c ≠ 37 → PercentEncodes s t → PercentEncodes (c :: s) (c :: t)
  | escaped {c a b : UInt8} {h l : Nat} {s t : Bytes} : HexDigit a h → HexDigit b l → c.toNat = 16 * h + l →
      PercentEncodes s t → PercentEncodes (c :: s) (37 :: a :: b :: t)

/-- The segments of a path: the texts between its slashes. -/
inductive Segments : Bytes → List Bytes → Prop
  | last {s : Bytes} : (47 : UInt8) ∉ s → Segments s [s]
  | cons {s r : Bytes} {l : List Bytes} : (47 : UInt8) ∉ s → Segments r l → Segments (s ++ 47 :: r) (s :: l)

/-- Everything before the last slash of an output buffer: "remove the last segment and its preceding
'/' (if any)". -/
def dropSegment (out : Bytes) : Bytes := (out.reverse.dropWhile (· ≠ 47)).tail.reverse

/-- Section 5.2.4, with its rules A to E in order. -/
def rfcDots (input out : Bytes) : Bytes :=
  match input with
  | [] => out
  | 46 :: 46 :: 47 :: r => rfcDots r out                                     -- A
  | 46 :: 47 :: r => rfcDots r out                                           -- A
  | 47 :: 46 :: 47 :: r => rfcDots (47 :: r) out                             -- B
  | [47, 46] => rfcDots [47] out                                             -- B
  | 47 :: 46 :: 46 :: 47 :: r => rfcDots (47 :: r) (dropSegment out)         -- C
  | [47, 46, 46] => rfcDots [47] (dropSegment out)                           -- C
  | [46] => out                                                              -- D
  | [46, 46] => out                                                          -- D
  | c :: r => rfcDots (r.dropWhile (· ≠ 47)) (out ++ c :: r.takeWhile (· ≠ 47))   -- E
termination_by input.length
decreasing_by
  all_goals simp
  all_goals first | omega | (exact Nat.lt_succ_of_le (List.dropWhile_sublist _).length_le)

def removeDotSegments (path : Bytes) : Bytes := rfcDots path []

/-- A URI reference taken apart (section 3): undefined components are `none`. -/
structure Ref where
  scheme : Option Bytes
  authority : Option Bytes
  path : Bytes
  query : Option Bytes
  fragment : Option Bytes
  deriving DecidableEq, Repr

/-- Section 5.3. -/
def recompose (r : Ref) : Bytes :=
  (match r.scheme with | some s => s ++ [58] | none => []) ++
  (match r.authority with | some a => 47 :: 47 :: a | none => []) ++
  r.path ++
  (match r.query with | some q => 63 :: q | none => []) ++
  (match r.fragment with | some f => 35 :: f | none => [])

/-- Section 5.2.3: the reference's path after all but the last segment of the base's. -/
def merge (b : Ref) (path : Bytes) : Bytes :=
  if b.authority.isSome ∧ b.path = [] then 47 :: path
  else (b.path.reverse.dropWhile (· ≠ 47)).reverse ++ path

/-- Section 5.2.2 (strict). -/
def transform (b r : Ref) : Ref :=
  if r.scheme.isSome then ⟨r.scheme, r.authority, removeDotSegments r.path, r.query, r.fragment⟩
  else if r.authority.isSome then ⟨b.scheme, r.authority, removeDotSegments r.path, r.query, r.fragment⟩
  else if r.path = [] then
    ⟨b.scheme, b.authority, b.path, if r.query.isSome then r.query else b.query, r.fragment⟩
  else if r.path.head? = some 47 then ⟨b.scheme, b.authority, removeDotSegments r.path, r.query, r.fragment⟩
  else ⟨b.scheme, b.authority, removeDotSegments (merge b r.path), r.query, r.fragment⟩

end Verif.Uri
