import Verif.Json.Emit
import Verif.Json.Driver
/-!
# Specification of the JSON round trip (C01, C02, C06)

What a value read back from its JSON text is, which values JSON text can carry, and what is
assumed of the C library's conversions between floats and text.  Nothing here refers to the
emitter or the parser; the imports are for the types of values and of the two conversions.
-/

namespace Verif.JsonTok
open Verif.JsonDrv Verif.JsonEmit

/-- The blanks the emitter writes. -/
def WS (ws : Bytes) : Prop := ∀ w ∈ ws, w = 32 ∨ w = 10

/-- Integer digits: a single zero, or digits not starting with zero. -/
def IntPart (ip : Bytes) : Prop :=
  ip = [48] ∨ ∃ d ds, ip = d :: ds ∧ d ≠ 48 ∧ ∀ b ∈ d :: ds, isDigit b = true

/-- The shape of `showpoint` output: optional sign, integer digits, a point, digits, optional
exponent. -/
def FloatText (t : Bytes) : Prop :=
  ∃ sg ip fp ex, t = sg ++ ip ++ [46] ++ fp ++ ex ∧ (sg = [] ∨ sg = [45]) ∧ IntPart ip ∧
    (∀ b ∈ fp, isDigit b = true) ∧
    (ex = [] ∨ ∃ x sn ds, ex = x :: (sn ++ ds) ∧ (x = 101 ∨ x = 69) ∧ (sn = [] ∨ sn = [43] ∨ sn = [45]) ∧
      ds ≠ [] ∧ ∀ b ∈ ds, isDigit b = true)

/-- What the round trip relies on about the C library's floating-point conversions: the shape
of the text printed for a finite number, and that `strtod` ignores blanks after a number. -/
structure FloatLaw (ff : FloatFmt) (fo : FloatOps) : Prop where
  shape : ∀ p b, nonFinite b = false → FloatText (ff p b)
  trail : ∀ t ws, FloatText t → WS ws → fo.strtod (t ++ ws) = fo.strtod t

mutual
/-- The value read back: non-negative integers become unsigned, floats go through text and
non-finite ones become null, blobs become one segment. -/
def readBack (ff : FloatFmt) (fo : FloatOps) (p : Nat) : Val → Val
  | .null => .null
  | .bool b => .bool b
  | .int i => if 0 ≤ i.toInt then .uint (UInt64.ofNat i.toInt.toNat) else .int i
  | .uint u => .uint u
  | .flt b => if nonFinite b then .null else .flt (fo.strtod (ff p b))
  | .str s => .str s
  | .list xs => .list (readBackList ff fo p xs)
  | .map m => .map (readBackMap ff fo p m)
  | .blob segs => .blob [segs.flatten]
def readBackList (ff : FloatFmt) (fo : FloatOps) (p : Nat) : List Val → List Val
  | [] => []
  | x :: xs => readBack ff fo p x :: readBackList ff fo p xs
def readBackMap (ff : FloatFmt) (fo : FloatOps) (p : Nat) : List (Bytes × Val) → List (Bytes × Val)
  | [] => []
  | (k, x) :: m => (k, readBack ff fo p x) :: readBackMap ff fo p m
end

/-- Strings the emitter can carry: no NUL byte, length below 2^32. -/
def PlainStr (s : Bytes) : Prop := (0 : UInt8) ∉ s ∧ s.length < 2 ^ 32

mutual
/-- Values the emitter can carry: plain strings and keys, blobs without empty segments. -/
def Plain : Val → Prop
  | .str s => PlainStr s
  | .list xs => PlainList xs
  | .map m => PlainMap m
  | .blob segs => ∀ s ∈ segs, s ≠ []
  | .null => True
  | .bool _ => True
  | .int _ => True
  | .uint _ => True
  | .flt _ => True
def PlainList : List Val → Prop
  | [] => True
  | x :: xs => Plain x ∧ PlainList xs
def PlainMap : List (Bytes × Val) → Prop
  | [] => True
  | (k, x) :: m => PlainStr k ∧ Plain x ∧ PlainMap m
end

/-- Lists and maps: the values a JSON document can be. -/
def IsContainer : Val → Prop
  | .list _ => True
  | .map _ => True
  | _ => False

mutual
/-- Values the emitter accepts: with the strict option no blob and no non-finite float; blobs
below a gigabyte. -/
def Emittable (strict : Bool) : Val → Prop
  | .flt b => strict = true → nonFinite b = false
  | .blob segs => strict = false ∧ 4 * segs.flatten.length + 14 < 2 ^ 32
  | .list xs => EmittableList strict xs
  | .map m => EmittableMap strict m
  | .null => True
  | .bool _ => True
  | .int _ => True
  | .uint _ => True
  | .str _ => True
def EmittableList (strict : Bool) : List Val → Prop
  | [] => True
  | x :: xs => Emittable strict x ∧ EmittableList strict xs
def EmittableMap (strict : Bool) : List (Bytes × Val) → Prop
  | [] => True
  | (_, x) :: m => Emittable strict x ∧ EmittableMap strict m
end

end Verif.JsonTok
