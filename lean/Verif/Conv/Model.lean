import Verif.Build.Model
import Verif.Schema.Model
import Verif.Args.Parse
import Verif.Val.Ops
/-!
# Conversions of values to C++ types (src/Variant.cc, include/Variant/Variant.h)

A float value holds a double (see `Verif/Val/Basic.lean`).  `char` is signed, `short`, `int`, `long` and `long long`
have 16, 32, 64 and 64 bits, and a conversion to a narrower integer type keeps the low bits (implementation defined
before C++20, done by all compilers).
-/

namespace Verif.Conv
open Verif

/-! ## Numbers out of texts -/

/-- `istringstream(s) >> (long long &)i` of libstdc++ (`num_get::_M_extract_int`, base 10, "C" locale): leading blanks, a
sign if any, digits; no digit or overflow is a failure (`none`).  What follows is left unread.  The unsigned one is
`extractU64`. -/
def extractI64 (s : Bytes) : Option Int64 :=
  let sg := Ext.sign (s.dropWhile isSpace)
  let d := (spanDigits sg.2).1
  let n := decVal 0 d
  if d = [] then none
  else if sg.1 then (if n ≤ 2 ^ 63 then some (Int64.ofInt (-(n : Int))) else none)
  else if n < 2 ^ 63 then some (Int64.ofInt n) else none

/-- `AsInt` (src/Variant.cc 272, 599, 715, 843, 902, 963, 1052-1058). -/
def asInt : Val → Out Int64
  | .null => .ok 0
  | .bool b => .ok (if b then 1 else 0)
  | .str s => match extractI64 s with
    | some i => .ok i
    | none => .throw .unableToConvert
  | v => Args.asIntNum v

/-- `AsUnsigned` (src/Variant.cc 269, 597, 712, 840, 899, 960, 1044-1050). -/
def asUnsigned : Val → Out UInt64
  | .null => .ok 0
  | .bool b => .ok (if b then 1 else 0)
  | .str s => match extractU64 s with
    | some n => .ok (UInt64.ofNat n)
    | none => .throw .unableToConvert
  | v => Schema.asUnsignedNum v

/-- `AsLongDouble` (src/Variant.cc 266, 595, 709, 837, 896, 957, 1036-1042), `p` significand bits; `num` is
`iss >> long double` of a string. -/
def asLongDouble (p : Nat) (num : Bytes → Option LD) : Val → Out LD
  | .null => .ok (.fin 0)
  | .bool b => .ok (.fin (if b then 2 ^ 1074 else 0))
  | .str s => match num s with
    | some x => .ok x
    | none => .throw .unableToConvert
  | v => match numLD p v with
    | some x => .ok x
    | none => .throw .unableToConvert

/-- `(double)` of a long double: 53 significand bits.  Overflow and doubles below 2^-1022 do not arise from the values
converted here (integers and doubles). -/
def toDouble : LD → LD
  | .fin n => .fin (if n < 0 then -(roundNat 53 n.natAbs : Int) else roundNat 53 n.natAbs)
  | x => x

/-- `AsDouble` (include/Variant/Variant.h 173). -/
def asDouble (p : Nat) (num : Bytes → Option LD) (v : Val) : Out LD := toDouble <$> asLongDouble p num v

/-! ## `variant_cast` -/

/-- The integer types with a `VariantCaster` of their own (include/Variant/Variant.h 464-474). -/
inductive IntTy where
  | char | uchar | schar | short | ushort | int | uint | long | ulong | llong | ullong
  deriving DecidableEq, Repr

/-- `sizeof` in bits. -/
def IntTy.bits : IntTy → Nat
  | .char | .uchar | .schar => 8
  | .short | .ushort => 16
  | .int | .uint => 32
  | .long | .ulong | .llong | .ullong => 64

/-- `std::is_signed`. -/
def IntTy.isSigned : IntTy → Bool
  | .char | .schar | .short | .int | .long | .llong => true
  | _ => false

/-- Whether the caster goes by `AsInt`; `signed char` goes by `AsUnsigned` (include/Variant/Variant.h 464-474). -/
def IntTy.viaInt : IntTy → Bool
  | .char | .short | .int | .long | .llong => true
  | _ => false

/-- Conversion of an integer to the type: the low bits. -/
def IntTy.wrap (t : IntTy) (n : Int) : Int :=
  if t.isSigned = true ∧ 2 ^ (t.bits - 1) ≤ n % 2 ^ t.bits then n % 2 ^ t.bits - 2 ^ t.bits else n % 2 ^ t.bits

/-- `variant_cast<T>` for an integer type (include/Variant/Variant.h 464-474). -/
def castInt (t : IntTy) (v : Val) : Out Int :=
  if t.viaInt then (fun i : Int64 => t.wrap i.toInt) <$> asInt v
  else (fun u : UInt64 => t.wrap u.toNat) <$> asUnsigned v

/-- Casting one element after the other. -/
def castAll (f : Val → Out α) : List Val → Out (List α)
  | [] => .ok []
  | x :: xs => do
    let y ← f x
    let ys ← castAll f xs
    .ok (y :: ys)

/-- `variant_cast<std::vector<T>>` (include/Variant/Variant.h 487-493); `ListBegin` of a constant value that is no list
throws (src/Variant.cc 295, 1150), null included. -/
def castVector (f : Val → Out α) : Val → Out (List α)
  | .list xs => castAll f xs
  | _ => .throw .unexpectedType

/-- Casting the values of a map. -/
def castPairs (f : Val → Out α) : List (Bytes × Val) → Out (List (Bytes × α))
  | [] => .ok []
  | (k, x) :: m => do
    let y ← f x
    let ys ← castPairs f m
    .ok ((k, y) :: ys)

/-- `variant_cast<std::map<std::string, T>>` (include/Variant/Variant.h 505-511). -/
def castMap (f : Val → Out α) : Val → Out (List (Bytes × α))
  | .map m => castPairs f m
  | _ => .throw .unexpectedType

/-- A variant made of a `std::vector` (include/Variant/Variant.h 395-398): a list of the elements. -/
def ofVector (g : α → Val) (xs : List α) : Val := .list (xs.map g)

/-- A variant made of a `std::map<std::string, T>` (include/Variant/Variant.h 401-404). -/
def ofMap (g : α → Val) (m : List (Bytes × α)) : Val := .map (m.map fun e => (e.1, g e.2))

/-- `variant_cast<std::complex<T>>` (include/Variant/Variant.h 521-540); `zero` is `T()`, `real` and `imag` are the
keys. -/
def castComplex (zero : α) (f : Val → Out α) (v : Val) : Out (α × α) :=
  match v with
  | .null => .ok (zero, zero)
  | .int _ | .uint _ | .flt _ => (·, zero) <$> f v
  | .map m => do
    let r ← match AMap.get m [114, 101, 97, 108] with
      | some x => f x
      | none => .ok zero
    let c ← match AMap.get m [105, 109, 97, 103] with
      | some x => f x
      | none => .ok zero
    .ok (r, c)
  | .list (x :: y :: _) => do
    let r ← f x
    let c ← f y
    .ok (r, c)
  | .list [x] => (·, zero) <$> f x
  | .list [] => .ok (zero, zero)
  | _ => .throw .unableToConvert

/-- `GetInto` with a default (include/Variant/Variant.h 558-561): the new value of the variable. -/
def getInto (f : Val → Out α) (v : Val) (k : Bytes) (d : α) : Out α :=
  match v with
  | .map m => match AMap.get m k with
    | some x => f x
    | none => .ok d
  | _ => .ok d

end Verif.Conv
