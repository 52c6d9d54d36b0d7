import Verif.Yaml.Model
import Verif.Xml.Spec
import Verif.Guess.Props
import Verif.Json.RoundSpec
/-!
# What is written as YAML, and what is read back
-/

namespace Verif.Yaml
open Verif Verif.JsonDrv

/-- A node to be written. -/
inductive WNode where
  | scalar (tag : Option Bytes) (text : Bytes) (plainOk quotedOk : Bool) (style : Style)
  | seq (style : CStyle) (xs : List WNode)
  | map (style : CStyle) (kvs : List (WNode × WNode))

mutual
/-- The events that ask libyaml to write a node. -/
def WNode.events : WNode → List WEv
  | .scalar tag t p q s => [.scalar tag t p q s]
  | .seq s xs => .seqStart s :: (wEvents xs ++ [.seqEnd])
  | .map s kvs => .mapStart s :: (wPairs kvs ++ [.mapEnd])
def wEvents : List WNode → List WEv
  | [] => []
  | x :: xs => x.events ++ wEvents xs
def wPairs : List (WNode × WNode) → List WEv
  | [] => []
  | (k, x) :: kvs => k.events ++ (x.events ++ wPairs kvs)
end

/-- The events for a document; the marks for its beginning and end may be left out. -/
structure WDoc where
  implicitBegin : Bool
  implicitEnd : Bool
  node : WNode

def WDoc.events (d : WDoc) : List WEv := .docStart d.implicitBegin :: (d.node.events ++ [.docEnd d.implicitEnd])

/-- The events for a stream. -/
def wStream (ds : List WDoc) : List WEv := .streamStart :: (ds.flatMap WDoc.events ++ [.streamEnd])

/-- A scalar without tag that may be written plain or quoted. -/
def untagged (t : Bytes) (s : Style) : WNode := .scalar none t true true s

/-- The text of a double: ".nan", ".inf", "-.inf" or digits. -/
def doubleText (ff : UInt64 → Bytes) (d : UInt64) : Bytes :=
  if Event.isNaN d then [46, 110, 97, 110]
  else if d = 0x7FF0000000000000 then [46, 105, 110, 102]
  else if d = 0xFFF0000000000000 then [45, 46, 105, 110, 102]
  else ff d

mutual
/-- The node for a value.  `ff`: the digits of a double, `bt`: the text of a blob. -/
def nodeOf (cf : Conf) (ff : UInt64 → Bytes) (bt : List Bytes → Bytes) : Val → WNode
  | .null => untagged [110, 117, 108, 108] .plain
  | .bool true => untagged [116, 114, 117, 101] .plain
  | .bool false => untagged [102, 97, 108, 115, 101] .plain
  | .int i => untagged (Xml.decimal i.toInt) .plain
  | .uint u => untagged (Xml.decimal u.toNat) .plain
  | .flt d => untagged (doubleText ff d) .plain
  | .str s => untagged (s.takeWhile (· ≠ 0)) .any
  | .blob s => .scalar (some binaryTag) (bt s) false false .any
  | .list xs => .seq cf.listStyle (nodesOf cf ff bt xs)
  | .map m => .map cf.mapStyle (pairsOf cf ff bt m)
def nodesOf (cf : Conf) (ff : UInt64 → Bytes) (bt : List Bytes → Bytes) : List Val → List WNode
  | [] => []
  | x :: xs => nodeOf cf ff bt x :: nodesOf cf ff bt xs
def pairsOf (cf : Conf) (ff : UInt64 → Bytes) (bt : List Bytes → Bytes) : List (Bytes × Val) → List (WNode × WNode)
  | [] => []
  | (k, x) :: m => (untagged (k.takeWhile (· ≠ 0)) .any, nodeOf cf ff bt x) :: pairsOf cf ff bt m
end

/-- Texts of printable ASCII characters. -/
def Printable (t : Bytes) : Prop := ∀ c ∈ t, 32 ≤ c ∧ c < 127

/-- Letters, digits, points and signs, at least one letter or digit, and no mark of a document at the beginning. -/
def Word (t : Bytes) : Prop :=
  (∀ c ∈ t, isDigit c = true ∨ (65 ≤ c ∧ c ≤ 90) ∨ (97 ≤ c ∧ c ≤ 122) ∨ c = 46 ∨ c = 43 ∨ c = 45) ∧
  (∃ c ∈ t, isDigit c = true ∨ (65 ≤ c ∧ c ≤ 90) ∨ (97 ≤ c ∧ c ≤ 122)) ∧
  ¬ [45, 45, 45] <+: t ∧ ¬ [46, 46, 46] <+: t

/-- What is taken for granted of libyaml: printable ASCII is accepted, and words are written plain. -/
structure LibLaw (utf8 : Bytes → Bool) (plain : Nat → Bytes → Bool) : Prop where
  ascii : ∀ t, Printable t → utf8 t = true
  word : ∀ k t, Word t → plain k t = true

/-- What is taken for granted of the digits printed for finite doubles. -/
def DigitsLaw (ff : UInt64 → Bytes) : Prop :=
  ∀ d, Event.isNaN d = false → d ≠ 0x7FF0000000000000 → d ≠ 0xFFF0000000000000 → JsonTok.FloatText (ff d)

/-- Values that can be written: libyaml takes the strings, blobs have no empty slabs and fit the 32-bit sizes. -/
def Writable (utf8 : Bytes → Bool) : Val → Prop
  | .str s => utf8 (s.takeWhile (· ≠ 0)) = true
  | .blob s => Xml.BlobOk (.blob s)
  | _ => True

/-- Strings that are read back: no NUL, taken by libyaml, and written quoted or not looking like another scalar. -/
def StrOk (utf8 : Bytes → Bool) (plain : Nat → Bytes → Bool) (s : Bytes) : Prop :=
  0 ∉ s ∧ utf8 s = true ∧ ((∀ k, plain k s = false) ∨ ¬ ∃ t, Guess.Surrounds s t ∧ Guess.LooksScalar t)

/-- Scalars that are read back. -/
def ScalarOk (utf8 : Bytes → Bool) (plain : Nat → Bytes → Bool) : Val → Prop
  | .str s => StrOk utf8 plain s
  | .blob s => Xml.BlobOk (.blob s)
  | _ => True

/-- The double read back. -/
def doubleBack (fo : FloatOps) (ff : UInt64 → Bytes) (d : UInt64) : UInt64 :=
  if Event.isNaN d then 0x7FF8000000000000
  else if d = 0x7FF0000000000000 ∨ d = 0xFFF0000000000000 then d
  else fo.strtod (ff d)

mutual
/-- The value read back: Unsigned that fit become Integer, doubles go through text, blobs become one slab. -/
def yamlBack (fo : FloatOps) (ff : UInt64 → Bytes) : Val → Val
  | .list xs => .list (yamlBackList fo ff xs)
  | .map m => .map (yamlBackMap fo ff m)
  | .null => .null
  | .bool b => .bool b
  | .int i => .int i
  | .uint u => if u.toNat < 2 ^ 63 then .int (Int64.ofNat u.toNat) else .uint u
  | .flt d => .flt (doubleBack fo ff d)
  | .str s => .str s
  | .blob s => .blob [s.flatten]
def yamlBackList (fo : FloatOps) (ff : UInt64 → Bytes) : List Val → List Val
  | [] => []
  | x :: xs => yamlBack fo ff x :: yamlBackList fo ff xs
def yamlBackMap (fo : FloatOps) (ff : UInt64 → Bytes) : List (Bytes × Val) → List (Bytes × Val)
  | [] => []
  | (k, x) :: m => (k, yamlBack fo ff x) :: yamlBackMap fo ff m
end

end Verif.Yaml
