import Verif.Bundle.Model
import Verif.Guess.Props
import Verif.Build.Props
/-!
# What a bundle header says
-/

namespace Verif.Bundle
open Verif Verif.JsonDrv
open Verif.Guess (Blank)

/-- `ls` are the lines of `content` that end with a newline, `rest` what follows the last newline. -/
def Lines (content : Bytes) (ls : List Bytes) (rest : Bytes) : Prop :=
  content = (ls.map (· ++ [10])).flatten ++ rest ∧ (∀ l ∈ ls, 10 ∉ l) ∧ 10 ∉ rest

/-- The line says `k: v`: blanks, the key, blanks beginning with a space or a tab, a colon, blanks, the value and perhaps
a `#` with anything behind it.  A key has no colon, space, tab or `#` and does not begin with a blank; a value
has no `#` and does not begin with a blank. -/
def Field (line k v : Bytes) : Prop :=
  ∃ b1 b2 b3 c, line = b1 ++ k ++ b2 ++ [58] ++ b3 ++ v ++ c ∧
    Blank b1 ∧ Blank b2 ∧ Blank b3 ∧
    (∀ x, b2.head? = some x → x = 32 ∨ x = 9) ∧
    (∀ x ∈ k, x ≠ 58 ∧ x ≠ 32 ∧ x ≠ 9 ∧ x ≠ 35) ∧ (∀ x, k.head? = some x → isSpace x = false) ∧
    35 ∉ v ∧ (∀ x, v.head? = some x → isSpace x = false) ∧
    (∀ x, c.head? = some x → x = 35)

/-- A C string ends at its first NUL. -/
def upToNul (s : Bytes) : Bytes := s.takeWhile (· ≠ 0)

/-- The fields of the lines, in order: key and value.  Lines that are no field and the version are passed over. -/
inductive Fields : List Bytes → List (Bytes × Bytes) → Prop
  | nil : Fields [] []
  | other {l ls fs} : (∀ k v, ¬ Field l k v) → Fields ls fs → Fields (l :: ls) fs
  | version {l ls fs k v} : Field l k v → upToNul k = versionKey → Fields ls fs → Fields (l :: ls) fs
  | field {l ls fs k v} : Field l k v → upToNul k ≠ versionKey → Fields ls fs → Fields (l :: ls) ((upToNul k, v) :: fs)

/-- `t` is the value up to its first NUL, without the blanks at its end. -/
def Text (raw t : Bytes) : Prop :=
  ∃ b, upToNul raw = t ++ b ∧ Blank b ∧ ∀ x, t.getLast? = some x → isSpace x = false

/-- `ts` are the non-empty parts of `t` between bars. -/
def Pieces (t : Bytes) (ts : List Bytes) : Prop :=
  ∃ ps, ps ≠ [] ∧ t = List.intercalate [124] ps ∧ (∀ p ∈ ps, 124 ∉ p) ∧ ts = ps.filter (· ≠ [])

/-- `v` is the scalar guessed from the text `t` (C55 says which one that is). -/
def Scalar (fo : FloatOps) (t : Bytes) (v : Val) : Prop := ∃ stale, v = Guess.guess fo stale t

/-- The scalars guessed from texts. -/
inductive Scalars (fo : FloatOps) : List Bytes → List Val → Prop
  | nil : Scalars fo [] []
  | cons {t v ts vs} : Scalar fo t v → Scalars fo ts vs → Scalars fo (t :: ts) (v :: vs)

/-- What a value means.  It is a list if its last byte is a bar or there are two parts; otherwise a scalar. -/
inductive Means (fo : FloatOps) (raw : Bytes) : Val → Prop
  | blank {t v} : Text raw t → Pieces t [] → raw.getLast? ≠ some 124 → Scalar fo t v → Means fo raw v
  | scalar {t p bars v} : Text raw (t ++ bars) → Pieces (t ++ bars) [p] → raw.getLast? ≠ some 124 →
      (∀ x ∈ bars, x = 124) → t.getLast? ≠ some 124 → Scalar fo t v → Means fo raw v
  | list {t ts vs} : Text raw t → Pieces t ts → (raw.getLast? = some 124 ∨ 2 ≤ ts.length) →
      Scalars fo ts vs → Means fo raw (.list vs)

/-- The map the fields describe: of several fields with the same key the last counts. -/
def Describes (fo : FloatOps) (fs : List (Bytes × Bytes)) (m : List (Bytes × Val)) : Prop :=
  AMap.Sorted m ∧
  (∀ k, (∀ f ∈ fs, f.1 ≠ k) → AMap.get m k = none) ∧
  ∀ a k raw b, fs = a ++ (k, raw) :: b → (∀ f ∈ b, f.1 ≠ k) → ∃ v, AMap.get m k = some v ∧ Means fo raw v

/-! ## What is written -/

/-- The text written for a scalar; blobs, lists and maps have none. -/
def scalarText (ff : UInt64 → Bytes) : Val → Option Bytes
  | .null => some []
  | .bool true => some [49]
  | .bool false => some [48]
  | .int i => some (if i.toInt < 0 then 45 :: natDec i.toInt.natAbs else natDec i.toInt.natAbs)
  | .uint u => some (natDec u.toNat)
  | .flt d => some (ff d)
  | .str s => some (upToNul s)
  | .list _ => none
  | .map _ => none
  | .blob _ => none

/-- All of them, if each is there. -/
def allSome {α : Type} : List (Option α) → Option (List α)
  | [] => some []
  | none :: _ => none
  | some a :: as => (allSome as).map (a :: ·)

/-- "bundle.version: 0.0" and a newline. -/
def versionText : Bytes := [98, 117, 110, 100, 108, 101, 46, 118, 101, 114, 115, 105, 111, 110, 58, 32, 48, 46, 48, 10]

/-- The text of a member: a scalar, or the scalars of a list with a bar between any two and one at the end. -/
def memberText (ff : UInt64 → Bytes) : Val → Option Bytes
  | .list xs => (allSome (xs.map (scalarText ff))).map fun ts => List.intercalate [124] ts ++ [124]
  | x => scalarText ff x

/-- The line of a member. -/
def memberLine (ff : UInt64 → Bytes) (kx : Bytes × Val) : Option Bytes :=
  (memberText ff kx.2).map fun t => upToNul kx.1 ++ [58, 32] ++ t ++ [10]

/-- The text of a value: a map of scalars and lists of scalars. -/
def headerText (ff : UInt64 → Bytes) : Val → Option Bytes
  | .map m => (allSome (m.map (memberLine ff))).map fun ls => versionText ++ ls.flatten
  | _ => none

/-! ## What can be written and read back -/

/-- A key that is read as it is written. -/
def GoodKey (k : Bytes) : Prop :=
  (∀ x ∈ k, x ≠ 58 ∧ x ≠ 32 ∧ x ≠ 9 ∧ x ≠ 35 ∧ x ≠ 10 ∧ x ≠ 0) ∧ (∀ x, k.head? = some x → isSpace x = false) ∧ k ≠ versionKey

/-- A text without bars, `#`, newlines and NULs. -/
def GoodText (t : Bytes) : Prop := ∀ x ∈ t, x ≠ 124 ∧ x ≠ 35 ∧ x ≠ 10 ∧ x ≠ 0

/-- A member that is read as it is written: the texts have no bars, `#`, newlines and NULs.  A scalar does not begin or
end with a blank; the texts in a list are not empty, and the first does not begin with a blank. -/
inductive GoodMember (ff : UInt64 → Bytes) : Val → Prop
  | scalar {x t} : scalarText ff x = some t → GoodText t → (∀ c, t.head? = some c → isSpace c = false) →
      (∀ c, t.getLast? = some c → isSpace c = false) → GoodMember ff x
  | list {xs ts} : allSome (xs.map (scalarText ff)) = some ts → (∀ t ∈ ts, GoodText t ∧ t ≠ []) →
      (∀ t c, ts.head? = some t → t.head? = some c → isSpace c = false) → GoodMember ff (.list xs)

/-- `y` is the member read for a written member `x`. -/
inductive ReadBack (ff : UInt64 → Bytes) (fo : FloatOps) : Val → Val → Prop
  | scalar {x t y} : scalarText ff x = some t → Scalar fo t y → ReadBack ff fo x y
  | list {xs ts ys} : allSome (xs.map (scalarText ff)) = some ts → Scalars fo ts ys → ReadBack ff fo (.list xs) (.list ys)

/-- A text that is read as a string. -/
def Wordy (s : Bytes) : Prop := ¬ ∃ t, Guess.Surrounds s t ∧ Guess.LooksScalar t

/-- A string or a list of strings that does not change by writing and reading it. -/
inductive Plain : Val → Prop
  | str {s} : GoodText s → (∀ c, s.head? = some c → isSpace c = false) → (∀ c, s.getLast? = some c → isSpace c = false) →
      Wordy s → Plain (.str s)
  | list {ss : List Bytes} : (∀ s ∈ ss, GoodText s ∧ s ≠ [] ∧ Wordy s) →
      (∀ s c, ss.head? = some s → s.head? = some c → isSpace c = false) → Plain (.list (ss.map .str))

end Verif.Bundle
