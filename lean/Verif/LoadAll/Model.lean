import Verif.Xml.Spec
/-!
# Iterating over documents (src/VariantParsing.cc 270-345, include/Variant/Variant.h 595-625)

`LoadAllIterator` over any parser: copies of an iterator share the parser and a linked list of the values read so far.
-/

namespace Verif.LoadAll
open Verif

/-- A parser as the iterator uses it (include/Variant/Parser.h 99-150): `Done`, and `ParseVariant`
(src/VariantParsing.cc 208-214), which changes the state of the parser also if it throws.  `none`: it does not return. -/
structure Source (σ : Type) where
  done : σ → Bool
  parse : σ → Option (σ × Out Val)

/-- `LoadAllIterator::Value` (src/VariantParsing.cc 302-306); the nodes of the list are numbered in the order of their
creation. -/
structure Node where
  v : Val
  next : Option Nat

/-- A `LoadAllIterator` (include/Variant/Variant.h 621-624): whether `impl` is set, and `value`. -/
structure It where
  impl : Bool
  value : Option Nat

/-- The parser shared by all copies, the nodes, and the iterators of the user. -/
structure St (σ : Type) where
  parser : σ
  nodes : List Node
  its : List It

/-- `Variant::IsNull`. -/
def isNull : Val → Bool
  | .null => true
  | _ => false

/-- `Next` (src/VariantParsing.cc 321-338) for one iterator: the parser, the nodes and the new `value`. -/
def next (P : Source σ) (p : σ) (nodes : List Node) (it : It) : Option (σ × List Node × Out (Option Nat)) :=
  match it.value with
  | none =>
    if !it.impl then some (p, nodes, .ub)
    else if !P.done p then
      match P.parse p with
      | none => none
      | some (p, .ok v) => some (p, nodes ++ [⟨v, none⟩], .ok (some nodes.length))
      | some (p, .throw x) => some (p, nodes, .throw x)
      | some (p, .ub) => some (p, nodes, .ub)
    else some (p, nodes, .ok none)
  | some n =>
    match nodes[n]? with
    | none => some (p, nodes, .ub)
    | some x =>
      match x.next with
      | some m => some (p, nodes, .ok (some m))
      | none =>
        if !P.done p then
          match P.parse p with
          | none => none
          | some (p, .ok v) =>
            if P.done p && isNull v then some (p, nodes, .ok none)        -- `value->next.reset()`: the new node is gone
            else some (p, nodes.set n { x with next := some nodes.length } ++ [⟨v, none⟩], .ok (some nodes.length))
          | some (p, .throw x) => some (p, nodes, .throw x)
          | some (p, .ub) => some (p, nodes, .ub)
        else some (p, nodes, .ok none)

/-- What the user does with iterators, by their number: make a copy, make one with the default constructor, assign one
to another, `Next` (or `++`), `Get` (or `*`, `->`), assign to what `Get` refers to, compare. -/
inductive Op where
  | copy (i : Nat)
  | default
  | assign (i j : Nat)
  | next (i : Nat)
  | get (i : Nat)
  | set (i : Nat) (v : Val)
  | eq (i j : Nat)

/-- What the user sees of it. -/
inductive Obs where
  | unit
  | val (v : Val)
  | bool (b : Bool)

/-- One operation.  Numbers of iterators that do not exist do nothing. -/
def step (P : Source σ) (s : St σ) : Op → Option (St σ × Out Obs)
  | .copy i =>
    match s.its[i]? with
    | none => some (s, .ok .unit)
    | some x => some ({ s with its := s.its ++ [x] }, .ok .unit)
  | .default => some ({ s with its := s.its ++ [⟨false, none⟩] }, .ok .unit)          -- src/VariantParsing.cc 308-309
  | .assign i j =>
    match s.its[j]? with
    | none => some (s, .ok .unit)
    | some x => some ({ s with its := s.its.set i x }, .ok .unit)
  | .next i =>
    match s.its[i]? with
    | none => some (s, .ok .unit)
    | some x =>
      match next P s.parser s.nodes x with
      | none => none
      | some (p, ns, .ok v) => some (⟨p, ns, s.its.set i { x with value := v }⟩, .ok .unit)
      | some (p, ns, .throw e) => some (⟨p, ns, s.its⟩, .throw e)
      | some (p, ns, .ub) => some (⟨p, ns, s.its⟩, .ub)
  | .get i =>                                                                          -- src/VariantParsing.cc 316-319
    match s.its[i]? with
    | none => some (s, .ok .unit)
    | some ⟨_, none⟩ => some (s, .throw .outOfRange)
    | some ⟨_, some n⟩ =>
      match s.nodes[n]? with
      | none => some (s, .ub)
      | some x => some (s, .ok (.val x.v))
  | .set i v =>
    match s.its[i]? with
    | none => some (s, .ok .unit)
    | some ⟨_, none⟩ => some (s, .throw .outOfRange)
    | some ⟨_, some n⟩ =>
      match s.nodes[n]? with
      | none => some (s, .ub)
      | some x => some ({ s with nodes := s.nodes.set n { x with v := v } }, .ok .unit)
  | .eq i j =>                                                                         -- src/VariantParsing.cc 339-344
    match s.its[i]?, s.its[j]? with
    | some a, some b =>
      match a.value, b.value with
      | some m, some n => some (s, .ok (.bool (m = n)))
      | none, none => some (s, .ok (.bool true))
      | _, _ => some (s, .ok (.bool false))
    | _, _ => some (s, .ok .unit)

/-- The constructor (src/VariantParsing.cc 311-315). -/
def create (P : Source σ) (p : σ) : Option (Out (St σ)) :=
  match next P p [] ⟨true, none⟩ with
  | none => none
  | some (p, ns, .ok v) => some (.ok ⟨p, ns, [⟨true, v⟩]⟩)
  | some (_, _, .throw e) => some (.throw e)
  | some (_, _, .ub) => some .ub

/-- A sequence of operations; exceptions are caught by the user, who goes on. -/
def run (P : Source σ) (s : St σ) : List Op → Option (List (Out Obs))
  | [] => some []
  | op :: ops =>
    match step P s op with
    | none => none
    | some (_, .ub) => some [.ub]
    | some (s, o) => (run P s ops).map (o :: ·)

end Verif.LoadAll
