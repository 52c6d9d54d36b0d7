import Verif.Json.Driver
import Verif.Ext.Pointer
/-!
# Guessing the type of a scalar (src/GuessScalar.cc)

The result is the value given to the parser action.  C locale.
-/

namespace Verif.Guess
open Verif Verif.JsonDrv

/-- `[-+]?` and the rest. -/
abbrev sign := Ext.sign

/-- `[0-9]+`. -/
def digits (t : Bytes) : Bool := !t.isEmpty && t.all isDigit

/-- `[0-7]`. -/
def isOct (c : UInt8) : Bool := 48 ≤ c && c ≤ 55

/-- Value of a hexadecimal digit, `[0-9a-fA-F]`. -/
def hexVal (c : UInt8) : Option Nat :=
  if 48 ≤ c ∧ c ≤ 57 then some (c.toNat - 48)
  else if 65 ≤ c ∧ c ≤ 70 then some (c.toNat - 55)
  else if 97 ≤ c ∧ c ≤ 102 then some (c.toNat - 87)
  else none

/-- `([eE][-+]?[0-9]+)?` is the whole text. -/
def isExp (r : Bytes) : Bool :=
  match r with
  | [] => true
  | c :: r => (c == 101 || c == 69) && digits (sign r).2

/-- `[-+]?((\.[0-9]+)|([0-9]+(\.[0-9]*)?))([eE][-+]?[0-9]+)?` is the whole text (src/GuessScalar.cc 23). -/
def isFloat (t : Bytes) : Bool :=
  let d := spanDigits (sign t).2
  match d.2 with
  | [] => !d.1.isEmpty
  | c :: r =>
    if c = 46 then
      let f := spanDigits r
      (!d.1.isEmpty || !f.1.isEmpty) && isExp f.2
    else !d.1.isEmpty && isExp (c :: r)

/-- `0o([0-7]+)` is the whole text: the digits (src/GuessScalar.cc 21). -/
def octal (t : Bytes) : Option Bytes :=
  match t with
  | a :: b :: r => if a = 48 ∧ b = 111 ∧ r ≠ [] ∧ r.all isOct then some r else none
  | _ => none

/-- `0x([0-9a-fA-F]+)` is the whole text: the digits (src/GuessScalar.cc 22). -/
def hex (t : Bytes) : Option Bytes :=
  match t with
  | a :: b :: r => if a = 48 ∧ b = 120 ∧ r ≠ [] ∧ r.all (fun c => (hexVal c).isSome) then some r else none
  | _ => none

/-- Value of octal digits. -/
def octVal (acc : Nat) : Bytes → Nat
  | [] => acc
  | c :: r => octVal (acc * 8 + (c.toNat - 48)) r

/-- Value of hexadecimal digits. -/
def hexadecVal (acc : Nat) : Bytes → Nat
  | [] => acc
  | c :: r => hexadecVal (acc * 16 + (hexVal c).getD 0) r

/-- `strtoull` of digits only. -/
def sat64 (n : Nat) : UInt64 := UInt64.ofNat (min n (2 ^ 64 - 1))

/-- `strtoll` of a sign and digits: out of range gives the nearest limit. -/
def strtoll (neg : Bool) (n : Nat) : Int :=
  if neg then (if n ≤ 2 ^ 63 then -(n : Int) else -(2 ^ 63)) else (if n < 2 ^ 63 then n else 2 ^ 63 - 1)

/-- The integer case (src/GuessScalar.cc 79-89).  `errno` is not reset before `strtoll`: `stale` tells whether it
was `ERANGE` already. -/
def int10 (stale : Bool) (t : Bytes) : Val :=
  let sg := sign t
  let n := decVal 0 sg.2
  let v := strtoll sg.1 n
  let range := stale || (if sg.1 then n > 2 ^ 63 else n ≥ 2 ^ 63)
  if v = 2 ^ 63 - 1 ∧ range then .uint (sat64 n) else .int (Int64.ofInt v)

/-- Without the blanks around it (`[[:space:]\n]*` at both ends; no alternative begins or ends with a blank). -/
def trim (s : Bytes) : Bytes := ((s.dropWhile isSpace).reverse.dropWhile isSpace).reverse

/-- null Null NULL ~ (src/GuessScalar.cc 16) -/
def sNull : List Bytes := [[110, 117, 108, 108], [78, 117, 108, 108], [78, 85, 76, 76], [126]]
/-- true True TRUE (src/GuessScalar.cc 17) -/
def sTrue : List Bytes := [[116, 114, 117, 101], [84, 114, 117, 101], [84, 82, 85, 69]]
/-- false False FALSE (src/GuessScalar.cc 18) -/
def sFalse : List Bytes := [[102, 97, 108, 115, 101], [70, 97, 108, 115, 101], [70, 65, 76, 83, 69]]
/-- .inf -.inf +.inf .Inf .INF (src/GuessScalar.cc 24) -/
def sInf : List Bytes := [[46, 105, 110, 102], [45, 46, 105, 110, 102], [43, 46, 105, 110, 102], [46, 73, 110, 102], [46, 73, 78, 70]]
/-- .nan .Nan .NAN (src/GuessScalar.cc 25) -/
def sNan : List Bytes := [[46, 110, 97, 110], [46, 78, 97, 110], [46, 78, 65, 78]]

/-- `GuessScalar` (src/GuessScalar.cc 70-117).  `regexec` and the conversions see the text up to the first NUL; the
string case keeps all of it.  Where a text matches several alternatives, POSIX takes the first. -/
def guess (fo : FloatOps) (stale : Bool) (value : Bytes) : Val :=
  let c := value.takeWhile (· ≠ 0)
  let t := trim c
  if t ∈ sNull then .null
  else if t ∈ sTrue then .bool true
  else if t ∈ sFalse then .bool false
  else if digits (sign t).2 then int10 stale t
  else match octal t with
    | some ds => .uint (sat64 (octVal 0 ds))
    | none => match hex t with
      | some ds => .uint (sat64 (hexadecVal 0 ds))
      | none =>
        if isFloat t then .flt (fo.strtod (c.dropWhile isSpace))
        else if t ∈ sInf then
          .flt (if t.head? = some 45 then 0xFFF0000000000000 else 0x7FF0000000000000)
        else if t ∈ sNan then .flt 0x7FF8000000000000
        else .str value

end Verif.Guess
