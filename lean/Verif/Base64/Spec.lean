import Verif.Base.Outcome
/-!
# Independent specification of base64 (RFC 4648, section 4)

Three bytes are one 24-bit number, written as four digits in base 64; a final group of one
or two bytes is padded with zero bits and `=`.
-/

namespace Verif.B64Spec

/-- The base-64 digit `n < 64` as an ASCII character code. -/
def digit (n : Nat) : UInt8 :=
  if n < 26 then UInt8.ofNat (65 + n)              -- A-Z
  else if n < 52 then UInt8.ofNat (97 + (n - 26))  -- a-z
  else if n < 62 then UInt8.ofNat (48 + (n - 52))  -- 0-9
  else if n = 62 then 43                           -- +
  else 47                                          -- /

/-- RFC 4648 base64 text. -/
def rfc4648 : Bytes → Bytes
  | [] => []
  | [a] =>
    let n := a.toNat * 65536
    [digit (n / 262144), digit (n / 4096 % 64), 61, 61]
  | [a, b] =>
    let n := a.toNat * 65536 + b.toNat * 256
    [digit (n / 262144), digit (n / 4096 % 64), digit (n / 64 % 64), 61]
  | a :: b :: c :: rest =>
    let n := a.toNat * 65536 + b.toNat * 256 + c.toNat
    digit (n / 262144) :: digit (n / 4096 % 64) :: digit (n / 64 % 64) :: digit (n % 64)
      :: rfc4648 rest

/-- Text with the line feeds removed. -/
def unwrap (t : Bytes) : Bytes := t.filter (· ≠ 10)

end Verif.B64Spec
