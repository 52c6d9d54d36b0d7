import Verif.Val.Basic
import Verif.Blob.Model
/-!
# Comparison and arithmetic (src/Variant.cc)

Numbers are compared as `long double` (src/Variant.cc 752-761).  The width `p` of its
significand is a parameter of the model: 64 on x86 Linux, 53 where `long double` is `double`.
Exponents of `long double` are not bounded here (its range covers all 64-bit integers and all
doubles).  A float value is one that holds a double (see `Verif/Val/Basic.lean`).
-/

namespace Verif

/-! ## `long double` -/

/-- A `long double`: a finite value is an integer multiple of 2^-1074 (the smallest double),
given by that integer; the two zeros compare equal and are identified. -/
inductive LD where
  | nan
  | inf (neg : Bool)
  | fin (n : Int)
  deriving DecidableEq, Repr

/-- The C operator `<` on `long double`. -/
def LD.lt : LD → LD → Bool
  | .nan, _ => false
  | _, .nan => false
  | .inf a, .inf b => a && !b
  | .inf a, .fin _ => a
  | .fin _, .inf b => !b
  | .fin a, .fin b => a < b

/-- Round a natural number to `p` significant bits, to nearest, ties to even: conversion of an
integer to a binary floating-point type. -/
def roundNat (p n : Nat) : Nat :=
  let bits := if n = 0 then 0 else Nat.log2 n + 1
  if bits ≤ p then n
  else
    let s := bits - p
    let q := n / 2 ^ s
    let r := n % 2 ^ s
    let half := 2 ^ (s - 1)
    if r > half ∨ (r = half ∧ q % 2 = 1) then (q + 1) * 2 ^ s else q * 2 ^ s

/-- `(long double)i` (src/Variant.cc 835, 894). -/
def LD.ofInt (p : Nat) (i : Int) : LD :=
  .fin ((if i < 0 then -(roundNat p i.natAbs : Int) else roundNat p i.natAbs) * 2 ^ 1074)

/-- The value of a double given by its IEEE-754 bits; converting it to `long double` is exact
(src/Variant.cc 955). -/
def LD.ofDouble (bits : UInt64) : LD :=
  let b := bits.toNat
  let neg := b / 2 ^ 63 = 1
  let ex := b / 2 ^ 52 % 2048
  let fr := b % 2 ^ 52
  if ex = 2047 then
    if fr = 0 then .inf neg else .nan
  else
    let n : Nat := if ex = 0 then fr else (2 ^ 52 + fr) * 2 ^ (ex - 1)
    .fin (if neg then -(n : Int) else n)

/-- `AsLongDouble` of the numeric types (src/Variant.cc 834-835, 893-894, 954-955). -/
def numLD (p : Nat) : Val → Option LD
  | .int i => some (LD.ofInt p i.toInt)
  | .uint u => some (LD.ofInt p u.toNat)
  | .flt b => some (LD.ofDouble b)
  | _ => none

/-! ## `Compare` -/

/-- `std::string::compare` (the sign of the result): `memcmp` over the shorter length, then the
lengths. -/
def strCompare (a b : Bytes) : Int :=
  let n := min a.length b.length
  match Blob.memcmp (a.take n) (b.take n) with
  | .lt => -1
  | .gt => 1
  | .eq => if a.length < b.length then -1 else if b.length < a.length then 1 else 0

/-- `Numeric::Compare` (src/Variant.cc 752-761). -/
def ldCompare (a b : LD) : Int := if LD.lt a b then -1 else if LD.lt b a then 1 else 0

/-- The sign of `Blob::Compare`'s result. -/
def ordSign : Ordering → Int
  | .lt => -1
  | .eq => 0
  | .gt => 1

mutual
/-- `Variant::Compare` (the sign of the result; src/Variant.cc 481-492 `Comparable`, 669-671,
717-723, 752-761, 1069-1075, 1209-1215, 1334-1340, 1399-1407, 2148).  Two list or map values
sharing storage compare equal element by element as any two would.  A blob value holding a null
`BlobPtr` is not modelled. -/
def cmp (p : Nat) : Val → Val → Int
  | .null, .null => 0
  | .bool a, .bool b => if a = b then 0 else 1
  | .str a, .str b => strCompare a b
  | .list a, .list b => if eqList p a b then 0 else 1
  | .map a, .map b => if eqMap p a b then 0 else 1
  | .blob a, .blob b => ordSign (Blob.compare a b)
  | v, w =>
    match numLD p v, numLD p w with
    | some a, some b => ldCompare a b
    | _, _ => 1
/-- `std::vector` equality: sizes, then elements with `==` (include/Variant/Variant.h 418). -/
def eqList (p : Nat) : List Val → List Val → Bool
  | [], [] => true
  | a :: as, b :: bs => cmp p a b == 0 && eqList p as bs
  | _, _ => false
/-- `std::map` equality: sizes, then pairs in key order. -/
def eqMap (p : Nat) : List (Bytes × Val) → List (Bytes × Val) → Bool
  | [], [] => true
  | a :: as, b :: bs => a.1 == b.1 && cmp p a.2 b.2 == 0 && eqMap p as bs
  | _, _ => false
end

/-- `operator==` (include/Variant/Variant.h 418). -/
def veq (p : Nat) (v w : Val) : Bool := cmp p v w == 0

mutual
/-- `Variant::Copy` (src/Variant.cc 2190; 560, 697, 826, 885, 945, 1015, 1121-1127, 1248-1254,
1374): the value of the copy.  A blob is copied into one buffer (src/Blob.cc 32-53). -/
def deepCopy : Val → Val
  | .list xs => .list (deepCopyList xs)
  | .map m => .map (deepCopyMap m)
  | .blob segs => .blob [segs.flatten]
  | v => v
def deepCopyList : List Val → List Val
  | [] => []
  | x :: xs => deepCopy x :: deepCopyList xs
def deepCopyMap : List (Bytes × Val) → List (Bytes × Val)
  | [] => []
  | x :: xs => (x.1, deepCopy x.2) :: deepCopyMap xs
end

/-! ## Arithmetic -/

/-- The five binary operations. -/
inductive Op where
  | add | sub | mul | div | rem
  deriving DecidableEq, Repr

/-- The operation on mathematical integers: C's division truncates. -/
def Op.exact : Op → Int → Int → Int
  | .add, a, b => a + b
  | .sub, a, b => a - b
  | .mul, a, b => a * b
  | .div, a, b => Int.tdiv a b
  | .rem, a, b => Int.tmod a b

/-- `Op<intmax_t>` (src/Variant.cc 763-773, 31-35): signed overflow and division by zero are
undefined. -/
def Op.signed (op : Op) (a b : Int64) : Out Int64 :=
  match op with
  | .div | .rem =>
    if b = 0 then .ub
    else if a.toInt = -2 ^ 63 ∧ b.toInt = -1 then .ub
    else .ok (Int64.ofInt (op.exact a.toInt b.toInt))
  | _ =>
    let r := op.exact a.toInt b.toInt
    if r < -2 ^ 63 ∨ 2 ^ 63 ≤ r then .ub else .ok (Int64.ofInt r)

/-- `Op<uintmax_t>` (src/Variant.cc 774-780): modulo 2^64; division by zero is undefined. -/
def Op.unsigned (op : Op) (a b : UInt64) : Out UInt64 :=
  match op with
  | .add => .ok (a + b)
  | .sub => .ok (a - b)
  | .mul => .ok (a * b)
  | .div => if b = 0 then .ub else .ok (a / b)
  | .rem => if b = 0 then .ub else .ok (a % b)

/-- `AsUnsigned` of the integer types: conversion modulo 2^64 (src/Variant.cc 837-838, 897). -/
def asUnsigned : Val → UInt64
  | .int i => i.toUInt64
  | .uint u => u
  | _ => 0

/-- `NumericUpcast` (src/Variant.cc 45-107) and `NumericOperation` (763-792), with the throwing
defaults for the other types (503-517).  Operations on floats are left to `fl`. -/
def arith (fl : Op → Val → Val → Val) (op : Op) (v w : Val) : Out Val :=
  match v.ty with
  | .int => match w.ty with
    | .int => match v, w with
      | .int a, .int b => (.int ·) <$> op.signed a b
      | _, _ => .ub
    | .uint => (.uint ·) <$> op.unsigned (asUnsigned v) (asUnsigned w)
    | .flt => .ok (fl op v w)
    | .blob => .throw .unknownType
    | _ => .throw .unableToConvert
  | .uint => match w.ty with
    | .int | .uint => (.uint ·) <$> op.unsigned (asUnsigned v) (asUnsigned w)
    | .flt => .ok (fl op v w)
    | .blob => .throw .unknownType
    | _ => .throw .unableToConvert
  | .flt => match w.ty with
    | .int | .uint | .flt => .ok (fl op v w)
    | .blob => .throw .unknownType
    | _ => .throw .unableToConvert
  | _ => .throw .notNumeric

/-- `Incr`, `Decr`, `Neg` of the integer types (src/Variant.cc 846-853, 906-914): signed
overflow is undefined, unsigned wraps; others throw (494-501). -/
def incr : Val → Out Val
  | .int i => (.int ·) <$> Op.add.signed i 1
  | .uint u => .ok (.uint (u + 1))
  | .flt b => .ok (.flt b)       -- float addition is not modelled
  | _ => .throw .notNumeric

/-- See `incr`. -/
def decr : Val → Out Val
  | .int i => (.int ·) <$> Op.sub.signed i 1
  | .uint u => .ok (.uint (u - 1))
  | .flt b => .ok (.flt b)       -- float addition is not modelled
  | _ => .throw .notNumeric

/-- See `incr`. -/
def neg : Val → Out Val
  | .int i => (.int ·) <$> Op.sub.signed 0 i
  | .uint u => .ok (.uint (0 - u))
  | .flt b => .ok (.flt (b ^^^ 0x8000000000000000))
  | _ => .throw .notNumeric

end Verif
