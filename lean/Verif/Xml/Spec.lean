import Verif.Xml.Model
import Verif.Build.Props
/-!
# What an XML property list says
-/

namespace Verif.Xml
open Verif Verif.JsonDrv
open Verif.Build (ETree)

/-- An XML document as the reader sees it: elements (`isEmpty`: written `<x/>`), texts and everything else. -/
inductive XTree where
  | elem (name : Bytes) (isEmpty : Bool) (kids : List XTree)
  | text (s : Bytes)
  | other

mutual
/-- The nodes the reader delivers for it. -/
def XTree.nodes : XTree → List RNode
  | .elem n true _ => [.elem n true]
  | .elem n false ks => .elem n false :: (nodesAll ks ++ [.endElem n])
  | .text s => [.text s]
  | .other => [.other]
def nodesAll : List XTree → List RNode
  | [] => []
  | t :: ts => t.nodes ++ nodesAll ts
end

/-- An element is called `n`, in upper or lower case. -/
def Called (name n : Bytes) : Prop := name.map lower = n

/-- The element is not one of the other ten. -/
def Stringy (name : Bytes) : Prop :=
  ∀ n ∈ [nTrue, nFalse, nNull, nInteger, nFloat, nRoot, nList, nMap, nKey, nBlob], ¬ Called name n

/-- There are no elements inside, and these are the texts. -/
inductive Texts : List XTree → List Bytes → Prop
  | nil : Texts [] []
  | other {ks ts} : Texts ks ts → Texts (.other :: ks) ts
  | text {s ks ts} : Texts ks ts → Texts (.text s :: ks) (s :: ts)

/-- The content is this string: one text, or none for the empty string. -/
def Content (ks : List XTree) (s : Bytes) : Prop := Texts ks [s] ∨ (Texts ks [] ∧ s = [])

/-- An element written `<x/>` has nothing inside. -/
def Kids (isEmpty : Bool) (ks : List XTree) : Prop := isEmpty = true → ks = []

mutual
/-- What an element says, as a value with the members of maps in the order of the document.  `Q`: whether `errno` may be
`ERANGE` when an integer is read; it matters for 9223372036854775807 only. -/
inductive Says (fo : FloatOps) (Q : Bool → Prop) : XTree → ETree → Prop
  | null {n e ks ts} : Called n nNull → Kids e ks → Texts ks ts → Says fo Q (.elem n e ks) (.scalar .null)
  | yes {n e ks ts} : Called n nTrue → Kids e ks → Texts ks ts → Says fo Q (.elem n e ks) (.scalar (.bool true))
  | no {n e ks ts} : Called n nFalse → Kids e ks → Texts ks ts → Says fo Q (.elem n e ks) (.scalar (.bool false))
  | integer {n ks s stale} : Q stale → Called n nInteger → Texts ks [s] → Says fo Q (.elem n false ks) (.scalar (readInt stale s))
  | real {n ks s} : Called n nFloat → Texts ks [s] → Says fo Q (.elem n false ks) (.scalar (.flt (fo.strtod s)))
  | string {n ks s} : Stringy n → Content ks s → Says fo Q (.elem n false ks) (.scalar (.str s))
  | data {n ks s d} : Called n nBlob → Texts ks [s] → B64.decode s = .ok d → 3 * s.length < 2 ^ 32 →
      Says fo Q (.elem n false ks) (.scalar (.blob [d]))
  | array {n e ks xs} : Called n nList → Kids e ks → Items fo Q ks xs → Says fo Q (.elem n e ks) (.list xs)
  | dict {n e ks kvs} : Called n nMap → Kids e ks → Entries fo Q ks kvs → Says fo Q (.elem n e ks) (.map kvs)
/-- What the elements say one after the other; anything between them does not matter. -/
inductive Items (fo : FloatOps) (Q : Bool → Prop) : List XTree → List ETree → Prop
  | nil : Items fo Q [] []
  | other {ks xs} : Items fo Q ks xs → Items fo Q (.other :: ks) xs
  | text {s ks xs} : Items fo Q ks xs → Items fo Q (.text s :: ks) xs
  | elem {t x ks xs} : Says fo Q t x → Items fo Q ks xs → Items fo Q (t :: ks) (x :: xs)
/-- Keys and values in turn. -/
inductive Entries (fo : FloatOps) (Q : Bool → Prop) : List XTree → List (Bytes × ETree) → Prop
  | nil : Entries fo Q [] []
  | other {ks kvs} : Entries fo Q ks kvs → Entries fo Q (.other :: ks) kvs
  | text {s ks kvs} : Entries fo Q ks kvs → Entries fo Q (.text s :: ks) kvs
  | key {n c k ks kvs} : Called n nKey → Content c k → Value fo Q k ks kvs → Entries fo Q (.elem n false c :: ks) kvs
/-- The value of key `k`, then more entries. -/
inductive Value (fo : FloatOps) (Q : Bool → Prop) : Bytes → List XTree → List (Bytes × ETree) → Prop
  | other {k ks kvs} : Value fo Q k ks kvs → Value fo Q k (.other :: ks) kvs
  | text {k s ks kvs} : Value fo Q k ks kvs → Value fo Q k (.text s :: ks) kvs
  | value {k t x ks kvs} : Says fo Q t x → Entries fo Q ks kvs → Value fo Q k (t :: ks) ((k, x) :: kvs)
end

/-! ## What is written -/

/-- A document to be written: elements and texts. -/
inductive WTree where
  | elem (name : Bytes) (kids : List WTree)
  | text (s : Bytes)

mutual
/-- The calls of the text writer for it. -/
def WTree.written : WTree → List WCall
  | .elem n ks => .start n :: (writtenAll ks ++ [.close])
  | .text s => [.text s]
def writtenAll : List WTree → List WCall
  | [] => []
  | t :: ts => t.written ++ writtenAll ts
end

mutual
/-- Every scalar of a value satisfies `P`, every key `K`. -/
def Every (P : Val → Prop) (K : Bytes → Prop) : Val → Prop
  | .list xs => EveryList P K xs
  | .map m => EveryMap P K m
  | .null => P .null
  | .bool b => P (.bool b)
  | .int i => P (.int i)
  | .uint u => P (.uint u)
  | .flt d => P (.flt d)
  | .str s => P (.str s)
  | .blob s => P (.blob s)
def EveryList (P : Val → Prop) (K : Bytes → Prop) : List Val → Prop
  | [] => True
  | x :: xs => Every P K x ∧ EveryList P K xs
def EveryMap (P : Val → Prop) (K : Bytes → Prop) : List (Bytes × Val) → Prop
  | [] => True
  | (k, x) :: m => K k ∧ Every P K x ∧ EveryMap P K m
end

/-- The decimal text of an integer. -/
def decimal (i : Int) : Bytes := if i < 0 then 45 :: natDec i.natAbs else natDec i.natAbs

mutual
/-- The property list of a value.  `ff`: the text of a double, `bt`: the text of a blob. -/
def plistOf (ff : UInt64 → Bytes) (bt : List Bytes → Bytes) : Val → WTree
  | .null => .elem nNull []
  | .bool true => .elem nTrue []
  | .bool false => .elem nFalse []
  | .int i => .elem nInteger [.text (decimal i.toInt)]
  | .uint u => .elem nInteger [.text (decimal u.toNat)]
  | .flt d => .elem nFloat [.text (ff d)]
  | .str s => .elem nString [.text (s.takeWhile (· ≠ 0))]
  | .blob s => .elem nBlob [.text (bt s)]
  | .list xs => .elem nList (plistItems ff bt xs)
  | .map m => .elem nMap (plistEntries ff bt m)
def plistItems (ff : UInt64 → Bytes) (bt : List Bytes → Bytes) : List Val → List WTree
  | [] => []
  | x :: xs => plistOf ff bt x :: plistItems ff bt xs
def plistEntries (ff : UInt64 → Bytes) (bt : List Bytes → Bytes) : List (Bytes × Val) → List WTree
  | [] => []
  | (k, x) :: m => .elem nKey [.text (k.takeWhile (· ≠ 0))] :: plistOf ff bt x :: plistEntries ff bt m
end

/-- Blobs that can be written: no empty slabs, and not too many bytes for the 32-bit sizes. -/
def BlobOk : Val → Prop
  | .blob s => (∀ x ∈ s, x ≠ []) ∧ 5 * s.flatten.length + 100 < 2 ^ 32
  | _ => True

/-! ## What can be read back -/

/-- Texts that are read as they are written: no NUL (nor other characters XML does not have), and not blanks only. -/
def TextOk (s : Bytes) : Prop := 0 ∉ s ∧ xmlChars s = true ∧ (s = [] ∨ ∃ c ∈ s, xmlBlank c = false)

/-- Scalars that are read back. -/
def ScalarOk (ff : UInt64 → Bytes) : Val → Prop
  | .str s => TextOk s
  | .flt d => TextOk (ff d) ∧ ff d ≠ []
  | .blob s => BlobOk (.blob s) ∧ s.flatten ≠ []
  | _ => True

/-- What a scalar is read back as. -/
def scalarBack (fo : FloatOps) (ff : UInt64 → Bytes) : Val → Val
  | .uint u => if u.toNat < 2 ^ 63 then .int (Int64.ofNat u.toNat) else .uint u
  | .flt d => .flt (fo.strtod (ff d))
  | .blob s => .blob [s.flatten]
  | v => v

mutual
/-- The value read back. -/
def plistBack (fo : FloatOps) (ff : UInt64 → Bytes) : Val → Val
  | .list xs => .list (plistBackList fo ff xs)
  | .map m => .map (plistBackMap fo ff m)
  | .null => .null
  | .bool b => .bool b
  | .int i => .int i
  | .uint u => scalarBack fo ff (.uint u)
  | .flt d => scalarBack fo ff (.flt d)
  | .str s => .str s
  | .blob s => scalarBack fo ff (.blob s)
def plistBackList (fo : FloatOps) (ff : UInt64 → Bytes) : List Val → List Val
  | [] => []
  | x :: xs => plistBack fo ff x :: plistBackList fo ff xs
def plistBackMap (fo : FloatOps) (ff : UInt64 → Bytes) : List (Bytes × Val) → List (Bytes × Val)
  | [] => []
  | (k, x) :: m => (k, plistBack fo ff x) :: plistBackMap fo ff m
end

end Verif.Xml
