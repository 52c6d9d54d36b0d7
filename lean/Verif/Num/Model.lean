import Verif.Val.Compare
/-!
# Arithmetic with floats (src/Variant.cc 31-42, 743-806, 916-985)

A Float holds a `long double`, and its operations are those of the hardware: the exact result rounded to the nearest number of the
format, ties to even; results too large become infinite, results too small lose bits (subnormal numbers).  Simplified: NaNs are not
told apart; the flags of the floating-point unit are not modelled.
-/

namespace Verif.Num
open Verif

/-- A `long double`: sign and magnitude (there are two zeros). -/
inductive F where
  | nan
  | inf (neg : Bool)
  | fin (neg : Bool) (mag : Rat)
  deriving DecidableEq

/-- A format: the numbers m * 2^j with m of `bits` bits and j ≥ `lo`, below 2^`hi`. -/
structure Format where
  bits : Nat
  lo : Int
  hi : Int

/-- `long double` on x86. -/
def extended : Format := ⟨64, -16445, 16384⟩

/-- `double`. -/
def double : Format := ⟨53, -1074, 1024⟩

/-- The `e` with 2^e ≤ x < 2^(e+1), for a positive x. -/
def expo (x : Rat) : Int :=
  let l : Int := (x.num.natAbs.log2 : Int) - (x.den.log2 : Int)
  if (2 : Rat) ^ l ≤ x then l else l - 1

/-- The exponent of the last bit of a positive x. -/
def last (p : Format) (x : Rat) : Int := max (expo x + 1 - (p.bits : Int)) p.lo

/-- The distance between the numbers of a format around a positive x. -/
def ulp (p : Format) (x : Rat) : Rat := 2 ^ last p x

/-- A positive number rounded to nearest, ties to even, as if there were no largest number. -/
def roundPos (p : Format) (x : Rat) : Rat :=
  let q : Int := (x / ulp p x).floor
  let r : Rat := x / ulp p x - q
  if 1 / 2 < r ∨ (r = 1 / 2 ∧ q % 2 = 1) then ((q + 1 : Int) : Rat) * ulp p x else (q : Rat) * ulp p x

/-- The rounded magnitude. -/
def roundMag (p : Format) (x : Rat) : Rat := if x = 0 then 0 else roundPos p x

/-- What is too large is infinite. -/
def fit (p : Format) (neg : Bool) (mag : Rat) : F := if mag < 2 ^ p.hi then .fin neg mag else .inf neg

/-- A number that is not zero, rounded. -/
def ofRat (p : Format) (x : Rat) : F := if x < 0 then fit p true (roundPos p (-x)) else fit p false (roundMag p x)

/-- The number. -/
def val (neg : Bool) (mag : Rat) : Rat := if neg then -mag else mag

/-- Addition. -/
def fadd (p : Format) : F → F → F
  | .nan, _ => .nan
  | _, .nan => .nan
  | .inf a, .inf b => if a = b then .inf a else .nan
  | .inf a, .fin _ _ => .inf a
  | .fin _ _, .inf b => .inf b
  | .fin a x, .fin b y => if val a x + val b y = 0 then .fin (a && b) 0 else ofRat p (val a x + val b y)

/-- Unary minus (src/Variant.cc 977-979). -/
def fneg : F → F
  | .nan => .nan
  | .inf a => .inf !a
  | .fin a x => .fin (!a) x

/-- Multiplication. -/
def fmul (p : Format) : F → F → F
  | .nan, _ => .nan
  | _, .nan => .nan
  | .inf a, .inf b => .inf (a != b)
  | .inf a, .fin b y => if y = 0 then .nan else .inf (a != b)
  | .fin a x, .inf b => if x = 0 then .nan else .inf (a != b)
  | .fin a x, .fin b y => fit p (a != b) (roundMag p (x * y))

/-- Division. -/
def fdiv (p : Format) : F → F → F
  | .nan, _ => .nan
  | _, .nan => .nan
  | .inf _, .inf _ => .nan
  | .inf a, .fin b _ => .inf (a != b)
  | .fin a _, .inf b => .fin (a != b) 0
  | .fin a x, .fin b y =>
    if y = 0 then (if x = 0 then .nan else .inf (a != b)) else fit p (a != b) (roundMag p (x / y))

/-- `fmod` (src/Variant.cc 38-42): exact, with the sign of the first. -/
def frem : F → F → F
  | .nan, _ => .nan
  | _, .nan => .nan
  | .inf _, _ => .nan
  | .fin a x, .inf _ => .fin a x
  | .fin a x, .fin _ y => if y = 0 then .nan else .fin a (x - y * ((x / y).floor : Int))

/-- `Op<long double>` (src/Variant.cc 781-786). -/
def fop (p : Format) : Op → F → F → F
  | .add, a, b => fadd p a b
  | .sub, a, b => fadd p a (fneg b)
  | .mul, a, b => fmul p a b
  | .div, a, b => fdiv p a b
  | .rem, a, b => frem a b

/-- The `long double` of a double given by its bits; exact (src/Variant.cc 981-986). -/
def ofDouble (bits : UInt64) : F :=
  let b := bits.toNat
  let neg := decide (b / 2 ^ 63 = 1)
  let ex := b / 2 ^ 52 % 2048
  let fr := b % 2 ^ 52
  if ex = 2047 then
    if fr = 0 then .inf neg else .nan
  else .fin neg ((if ex = 0 then fr else (2 ^ 52 + fr) * 2 ^ (ex - 1) : Nat) * (2 : Rat) ^ (-1074 : Int))

/-- A value that is a number. -/
inductive Num where
  | int (i : Int64)
  | uint (u : UInt64)
  | flt (f : F)
  deriving DecidableEq

/-- `(long double)` of an integer. -/
def ofInt (p : Format) (i : Int) : F := fit p (decide (i < 0)) (roundMag p (i.natAbs : Int))

/-- `AsLongDouble` (src/Variant.cc 837, 896, 957). -/
def Num.f (p : Format) : Num → F
  | .int i => ofInt p i.toInt
  | .uint u => ofInt p u.toNat
  | .flt f => f

/-- `AsUnsigned` of the integer types (src/Variant.cc 840, 899). -/
def Num.u : Num → UInt64
  | .int i => i.toUInt64
  | .uint u => u
  | .flt _ => 0

/-- `NumericOperation` (src/Variant.cc 763-792) with `NumericUpcast` (45-107) on two numbers. -/
def numOp (p : Format) (op : Op) (a b : Num) : Out Num :=
  match a, b with
  | .int a, .int b => (.int ·) <$> op.signed a b
  | .flt a, b => .ok (.flt (fop p op a (b.f p)))
  | a, .flt b => .ok (.flt (fop p op (a.f p) b))
  | a, b => (.uint ·) <$> op.unsigned a.u b.u

/-- `Incr` (src/Variant.cc 846-847, 906-907, 971-972). -/
def numIncr (p : Format) : Num → Out Num
  | .int i => (.int ·) <$> Op.add.signed i 1
  | .uint u => .ok (.uint (u + 1))
  | .flt f => .ok (.flt (fadd p f (.fin false 1)))

/-- `Decr` (src/Variant.cc 849-850, 909-910, 974-975). -/
def numDecr (p : Format) : Num → Out Num
  | .int i => (.int ·) <$> Op.sub.signed i 1
  | .uint u => .ok (.uint (u - 1))
  | .flt f => .ok (.flt (fadd p f (.fin true 1)))

/-- `Neg` (src/Variant.cc 852-853, 912-914, 977-979). -/
def numNeg : Num → Out Num
  | .int i => (.int ·) <$> Op.sub.signed 0 i
  | .uint u => .ok (.uint (0 - u))
  | .flt f => .ok (.flt (fneg f))

/-- The number a value is. -/
def Num.of : Val → Option Num
  | .int i => some (.int i)
  | .uint u => some (.uint u)
  | .flt b => some (.flt (ofDouble b))
  | _ => none

/-- `(double)` of a `long double`. -/
def toDouble : F → F
  | .fin a x => fit double a (roundMag double x)
  | f => f

end Verif.Num
