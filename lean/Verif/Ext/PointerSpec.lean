import Verif.Val.Basic
import Verif.Base.Decimal
/-!
# RFC 6901 and RFC 6902 on value trees

What pointers mean and what the edits do, stated without reference to the code.
-/

namespace Verif.Ext
open Verif

/-- Escaping of a reference token (RFC 6901 section 3): `~` becomes `~0`, `/` becomes `~1`. -/
def escapeToken (t : Bytes) : Bytes :=
  t.flatMap fun c => if c = 0x7e then [0x7e, 0x30] else if c = 0x2f then [0x7e, 0x31] else [c]

/-- The pointer text of a sequence of reference tokens. -/
def pointerText (ts : List Bytes) : Bytes := ts.flatMap fun t => 0x2f :: escapeToken t

/-- Following the tokens leads from one value to another (RFC 6901 section 4): a member of an
object by name, an element of an array by its position in plain decimal. -/
inductive Reaches : Val → List Bytes → Val → Prop
  | here {v} : Reaches v [] v
  | member {m t c ts w} : AMap.get m t = some c → Reaches c ts w → Reaches (.map m) (t :: ts) w
  | item {xs n c ts w} : xs[n]? = some c → Reaches c ts w → Reaches (.list xs) (natDec n :: ts) w

/-- `Below Edit v ts v'`: the tokens but the last lead to a value, which `Edit` changes as told by
the last token; everything else stays. -/
inductive Below (Edit : Val → Bytes → Val → Prop) : Val → List Bytes → Val → Prop
  | last {v t v'} : Edit v t v' → Below Edit v [t] v'
  | member {m t c ts c'} : AMap.get m t = some c → Below Edit c ts c' →
      Below Edit (.map m) (t :: ts) (.map (AMap.set m t c'))
  | item {xs n c ts c'} : xs[n]? = some c → Below Edit c ts c' →
      Below Edit (.list xs) (natDec n :: ts) (.list (xs.set n c'))

/-- Adding a member or an array element (RFC 6902 section 4.1). -/
inductive AddAt (x : Val) : Val → Bytes → Val → Prop
  | member {m t} : AddAt x (.map m) t (.map (AMap.set m t x))
  | insert {xs n} : n ≤ xs.length → AddAt x (.list xs) (natDec n) (.list (xs.take n ++ x :: xs.drop n))
  | append {xs} : AddAt x (.list xs) [0x2d] (.list (xs ++ [x]))

/-- Removing a member or an array element (RFC 6902 section 4.2). -/
inductive RemoveAt : Val → Bytes → Val → Prop
  | member {m t c} : AMap.get m t = some c → RemoveAt (.map m) t (.map (AMap.erase m t))
  | item {xs n} : n < xs.length → RemoveAt (.list xs) (natDec n) (.list (xs.eraseIdx n))

/-- Replacing an existing member or array element (RFC 6902 section 4.3). -/
inductive ReplaceAt (x : Val) : Val → Bytes → Val → Prop
  | member {m t c} : AMap.get m t = some c → ReplaceAt x (.map m) t (.map (AMap.set m t x))
  | item {xs n} : n < xs.length → ReplaceAt x (.list xs) (natDec n) (.list (xs.set n x))

/-- The whole document is replaced, or a place in it. -/
def Added (x v : Val) (ts : List Bytes) (v' : Val) : Prop := (ts = [] ∧ v' = x) ∨ Below (AddAt x) v ts v'
def Removed (v : Val) (ts : List Bytes) (v' : Val) : Prop := (ts = [] ∧ v' = .null) ∨ Below RemoveAt v ts v'
def Replaced (x v : Val) (ts : List Bytes) (v' : Val) : Prop := (ts = [] ∧ v' = x) ∨ Below (ReplaceAt x) v ts v'

/-- A token that is a plain decimal number below 2^32, or clearly is none: it is empty, is `-` or
starts with something that is not a digit, a blank, `+`, `-` or NUL. -/
def Proper (t : Bytes) : Prop :=
  (∃ n, n < 2 ^ 32 ∧ t = natDec n) ∨ t = [] ∨ t = [0x2d] ∨
    ∃ c r, t = c :: r ∧ isDigit c = false ∧ isSpace c = false ∧ c ≠ 0x2b ∧ c ≠ 0x2d ∧ c ≠ 0

end Verif.Ext
