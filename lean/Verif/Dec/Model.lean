import Verif.Num.Round
import Verif.Base.Decimal
/-!
# Doubles as text: how the emitters print them and `strtod` reads them

The emitters print a double with `oss << std::setprecision(p) << std::showpoint << v`
(src/JSONEmitter.cc 124-136, src/XMLPLISTEmitter.cc 151-160, src/YAMLEmitter.cc 327-343); the
parsers read it with `strtod` (src/GuessScalar.cc 100, src/XMLPLISTParser.cc 252, src/ArgParse.cc 1543; JSON through
src/JSONParser.cc).  The C++ and C libraries are not part of the repository: they are modelled as the
standards demand and glibc does it, `%#.*g` with correct rounding in both directions, in the "C" locale.
-/

namespace Verif.Dec
open Verif Verif.Num

/-! ## Printing -/

/-- The number of decimal digits less one; the first argument bounds the recursion. -/
def dlogAux : Nat → Nat → Nat
  | 0, _ => 0
  | f + 1, n => if n < 10 then 0 else dlogAux f (n / 10) + 1

/-- The number of decimal digits less one. -/
def dlog (n : Nat) : Nat := dlogAux n.log2 n

/-- The `e` with 10^e ≤ x < 10^(e+1), for a positive x. -/
def dexpo (x : Rat) : Int :=
  let l : Int := (dlog x.num.natAbs : Int) - (dlog x.den : Int)
  if (10 : Rat) ^ l ≤ x then l else l - 1

/-- A positive x rounded to P significant decimal digits, to nearest and ties to even: the digits
and the exponent of the first one. -/
def sig (P : Nat) (x : Rat) : Nat × Int :=
  let q := (nearInt (x / 10 ^ (dexpo x + 1 - (P : Int)))).toNat
  if q = 10 ^ P then (10 ^ (P - 1), dexpo x + 1) else (q, dexpo x)

/-- The last k decimal digits. -/
def digs : Nat → Nat → Bytes
  | 0, _ => []
  | k + 1, n => digs k (n / 10) ++ [digitByte (n % 10)]

/-- The exponent: at least two digits. -/
def expText (n : Nat) : Bytes := if n < 100 then digs 2 n else natDec n

/-- The layout of `%#.Pg` (C standard, 7.21.6.1): the point is always there and zeros are kept. -/
def layout (P q : Nat) (X : Int) : Bytes :=
  if -4 ≤ X ∧ X < P then
    if 0 ≤ X then (digs P q).take (X.toNat + 1) ++ [46] ++ (digs P q).drop (X.toNat + 1)
    else [48] ++ [46] ++ (List.replicate (-X - 1).toNat 48 ++ digs P q)
  else (digs P q).take 1 ++ [46] ++ (digs P q).drop 1 ++ (101 :: ([if X < 0 then 45 else 43] ++ expText X.natAbs))

/-- `oss << std::setprecision(p) << std::showpoint << v` (src/JSONEmitter.cc 133, src/XMLPLISTEmitter.cc 156,
src/YAMLEmitter.cc 339), `printf("%#.*g")`.  Precision 0 counts as 1. -/
def printDouble (p : Nat) (bits : UInt64) : Bytes :=
  let P := max p 1
  match ofDouble bits with
  | .fin neg mag => (if neg then [45] else []) ++
      (if mag = 0 then [48] ++ [46] ++ List.replicate (P - 1) 48 else layout P (sig P mag).1 (sig P mag).2)
  | .inf neg => (if neg then [45] else []) ++ [105, 110, 102]
  | .nan => [110, 97, 110]

/-! ## Reading -/

/-- The magnitude of a double in units of 2^-1074, as exponent and fraction bits. -/
def encMag (k : Nat) : Nat :=
  if k < 2 ^ 52 then k else (k.log2 - 52 + 1) * 2 ^ 52 + (k / 2 ^ (k.log2 - 52) - 2 ^ 52)

/-- The bits of a double; the inverse of `ofDouble`. -/
def encode : F → UInt64
  | .nan => 0x7FF8000000000000
  | .inf neg => UInt64.ofNat ((if neg then 2 ^ 63 else 0) + 2047 * 2 ^ 52)
  | .fin neg mag => UInt64.ofNat ((if neg then 2 ^ 63 else 0) + encMag (mag * 2 ^ (1074 : Int)).floor.toNat)

/-- The sign of a number and what follows. -/
def signOf : Bytes → Bool × Bytes
  | 45 :: t => (true, t)
  | 43 :: t => (false, t)
  | t => (false, t)

/-- The exponent of a number, 0 if there is none. -/
def expOf : Bytes → Int
  | c :: t =>
    if c = 101 ∨ c = 69 then
      let s := signOf t
      let ds := (spanDigits s.2).1
      if ds = [] then 0 else if s.1 then -(decVal 0 ds : Int) else (decVal 0 ds : Int)
    else 0
  | [] => 0

/-- The digits after the point and what follows. -/
def fracOf : Bytes → Bytes × Bytes
  | 46 :: t => spanDigits t
  | t => ([], t)

/-- The double nearest to m * 10^e, ties to even. -/
def nearestDouble (neg : Bool) (m : Nat) (e : Int) : F := fit double neg (roundMag double ((m : Rat) * 10 ^ e))

/-- Lower case, as far as ASCII goes. -/
def lower (c : UInt8) : UInt8 := if 65 ≤ c ∧ c ≤ 90 then c + 32 else c

/-- `inf` and `nan`, in any case, whatever follows. -/
def special (neg : Bool) (t : Bytes) : Option F :=
  if (t.take 3).map lower = [105, 110, 102] then some (.inf neg)
  else if (t.take 3).map lower = [110, 97, 110] then some .nan
  else none

/-- `strtod`; what follows the number is ignored, and a text that does not start with a number is 0.
Not modelled: hexadecimal numbers, and the sign and the payload of NaN. -/
def strtod (t : Bytes) : UInt64 :=
  let s := signOf (t.dropWhile isSpace)
  match special s.1 s.2 with
  | some f => encode f
  | none =>
    let i := spanDigits s.2
    let f := fracOf i.2
    if i.1 ++ f.1 = [] then 0 else encode (nearestDouble s.1 (decVal 0 (i.1 ++ f.1)) (expOf f.2 - (f.1.length : Int)))

end Verif.Dec
