import Verif.Yaml.Model
/-!
# What a YAML document means

Documents as trees, the events libyaml delivers for them, and the value they mean.
-/

namespace Verif.Yaml
open Verif Verif.JsonDrv

/-- A node of a document: a scalar with its anchor (`[]`: none), tag and style, an alias, a sequence or a mapping. -/
inductive YTree where
  | scalar (anchor : Bytes) (tag : Option Bytes) (style : Style) (value : Bytes)
  | alias (name : Bytes)
  | list (anchor : Bytes) (xs : List YTree)
  | map (anchor : Bytes) (kvs : List (YTree × YTree))

mutual
/-- The events of a node. -/
def YTree.events : YTree → List YEv
  | .scalar a t s v => [.scalar a t s v]
  | .alias n => [.alias n]
  | .list a xs => .seqStart a :: (eventsList xs ++ [.seqEnd])
  | .map a kvs => .mapStart a :: (eventsMap kvs ++ [.mapEnd])
def eventsList : List YTree → List YEv
  | [] => []
  | x :: xs => x.events ++ eventsList xs
def eventsMap : List (YTree × YTree) → List YEv
  | [] => []
  | (k, x) :: kvs => k.events ++ (x.events ++ eventsMap kvs)
end

/-- The events of a document. -/
def docEvents (t : YTree) : List YEv := .docStart :: (t.events ++ [.docEnd])

/-- The events of a stream of documents. -/
def streamOf (ts : List YTree) : List YEv := .streamStart :: (ts.flatMap docEvents ++ [.streamEnd])

/-- The anchors defined so far, in the order of their definition, with their values. -/
abbrev Env := List (Bytes × Val)

/-- Two questions about anchors: does an alias refer to the latest definition of its anchor (or to the first), and do
keys define anchors? -/
structure Rule where
  latest : Bool
  keys : Bool

/-- YAML 1.2 (sections 3.2.2.2 and 7.1): an alias refers to the most recent preceding node with its anchor; any node
may have an anchor. -/
def Rule.yaml : Rule := ⟨true, true⟩
/-- The rules the library follows. -/
def Rule.first : Rule := ⟨false, false⟩

/-- The value an alias refers to. -/
def Rule.find (r : Rule) (env : Env) (n : Bytes) : Option Val := (if r.latest then env.reverse else env).lookup n

/-- An anchor, if there is one, is defined. -/
def define (env : Env) (a : Bytes) (v : Val) : Env := if a = [] then env else env ++ [(a, v)]

/-- The value of a scalar.  `Q`: the states `errno` may be in.  Base64 for the binary tag; a string if it has another
tag or is quoted; else the value its text looks like. -/
inductive ScalarMeans (fo : FloatOps) (Q : Bool → Prop) : Option Bytes → Style → Bytes → Val → Prop
  | binary {st t d} : B64.decode t = .ok d → d.length ≤ (B64.decodeSize (UInt32.ofNat t.length)).toNat →
      ScalarMeans fo Q (some binaryTag) st t (.blob [d])
  | tagged {tag st t} : tag ≠ binaryTag → ScalarMeans fo Q (some tag) st t (.str t)
  | quoted {st t} : st = .single ∨ st = .double ∨ st = .literal ∨ st = .folded → ScalarMeans fo Q none st t (.str t)
  | plain {st t v} : st = .plain ∨ st = .any → (∀ s, Q s → Guess.guess fo s t = v) → ScalarMeans fo Q none st t v

/-- The key of a member: a string is itself, other scalars are turned into text. -/
inductive KeyText (fo : FloatOps) : Val → Bytes → Prop
  | str {s} : KeyText fo (.str s) s
  | null : KeyText fo .null []
  | yes : KeyText fo (.bool true) [116, 114, 117, 101]
  | no : KeyText fo (.bool false) [102, 97, 108, 115, 101]
  | int {i : Int64} : KeyText fo (.int i) (if i.toInt < 0 then 45 :: natDec i.toInt.natAbs else natDec i.toInt.natAbs)
  | uint {u : UInt64} : KeyText fo (.uint u) (natDec u.toNat)
  | flt {d} : KeyText fo (.flt d) (fo.fltText d)

/-- The last value for a key. -/
def lastOf (ws : List (Bytes × Val)) (k : Bytes) : Option Val := (ws.reverse.find? (fun p => p.1 == k)).map (·.2)

mutual
/-- `Means env t v env'`: where the anchors of `env` are defined, the node `t` means `v`, and behind it the anchors of
`env'` are defined.  A sequence or mapping defines its anchor at its end. -/
inductive Means (fo : FloatOps) (Q : Bool → Prop) (r : Rule) : Env → YTree → Val → Env → Prop
  | scalar {env a tag st t v} : ScalarMeans fo Q tag st t v → Means fo Q r env (.scalar a tag st t) v (define env a v)
  | alias {env n v} : r.find env n = some v → Means fo Q r env (.alias n) v env
  | list {env a xs vs env'} : MeansList fo Q r env xs vs env' → Means fo Q r env (.list a xs) (.list vs) (define env' a (.list vs))
  | map {env a kvs ws m env'} : MeansMap fo Q r env kvs ws env' → AMap.Sorted m → (∀ k, AMap.get m k = lastOf ws k) →
      Means fo Q r env (.map a kvs) (.map m) (define env' a (.map m))
inductive MeansList (fo : FloatOps) (Q : Bool → Prop) (r : Rule) : Env → List YTree → List Val → Env → Prop
  | nil {env} : MeansList fo Q r env [] [] env
  | cons {env x v env₁ xs vs env₂} : Means fo Q r env x v env₁ → MeansList fo Q r env₁ xs vs env₂ →
      MeansList fo Q r env (x :: xs) (v :: vs) env₂
inductive MeansMap (fo : FloatOps) (Q : Bool → Prop) (r : Rule) : Env → List (YTree × YTree) → List (Bytes × Val) → Env → Prop
  | nil {env} : MeansMap fo Q r env [] [] env
  | cons {env k kv kt env₁ x v env₂ kvs ws env₃} : Means fo Q r env k kv env₁ → KeyText fo kv kt →
      Means fo Q r (if r.keys then env₁ else env) x v env₂ → MeansMap fo Q r env₂ kvs ws env₃ →
      MeansMap fo Q r env ((k, x) :: kvs) ((kt, v) :: ws) env₃
end

mutual
/-- The anchors of a node, in the order of their definition. -/
def YTree.anchors : YTree → List Bytes
  | .scalar a _ _ _ => if a = [] then [] else [a]
  | .alias _ => []
  | .list a xs => anchorsList xs ++ (if a = [] then [] else [a])
  | .map a kvs => anchorsMap kvs ++ (if a = [] then [] else [a])
def anchorsList : List YTree → List Bytes
  | [] => []
  | x :: xs => x.anchors ++ anchorsList xs
def anchorsMap : List (YTree × YTree) → List Bytes
  | [] => []
  | (k, x) :: kvs => k.anchors ++ (x.anchors ++ anchorsMap kvs)
end

mutual
/-- No key has an anchor. -/
def YTree.NoKeyAnchor : YTree → Prop
  | .scalar _ _ _ _ => True
  | .alias _ => True
  | .list _ xs => NoKeyAnchorList xs
  | .map _ kvs => NoKeyAnchorMap kvs
def NoKeyAnchorList : List YTree → Prop
  | [] => True
  | x :: xs => x.NoKeyAnchor ∧ NoKeyAnchorList xs
def NoKeyAnchorMap : List (YTree × YTree) → Prop
  | [] => True
  | (k, x) :: kvs => k.anchors = [] ∧ k.NoKeyAnchor ∧ x.NoKeyAnchor ∧ NoKeyAnchorMap kvs
end

end Verif.Yaml
