import Verif.LoadAll.Model
/-!
# What an iterator over documents is: a position in a list of values
-/

namespace Verif.LoadAll
open Verif

/-- The values behind the first: what the parser gives until it is done; a null that comes together with the end is
the end. -/
inductive Rest (P : Source σ) : σ → List Val → Prop
  | done {p} : P.done p = true → Rest P p []
  | last {p q} : P.done p = false → P.parse p = some (q, .ok .null) → P.done q = true → Rest P p []
  | more {p q v vs} : P.done p = false → P.parse p = some (q, .ok v) → (P.done q = false ∨ v ≠ .null) → Rest P q vs → Rest P p (v :: vs)

/-- All the values of a parser. -/
inductive Values (P : Source σ) : σ → List Val → Prop
  | none {p} : P.done p = true → Values P p []
  | some {p q v vs} : P.done p = false → P.parse p = some (q, .ok v) → Rest P q vs → Values P p (v :: vs)

/-- The values, which the user may change, and the iterators: a position, or `none` for the default constructor. -/
structure Spec where
  vals : List Val
  its : List (Option Nat)

/-- The position of an iterator; the end for the default constructor. -/
def Spec.pos (s : Spec) (x : Option Nat) : Nat := x.getD s.vals.length

def Spec.step (s : Spec) : Op → Spec × Out Obs
  | .copy i =>
    match s.its[i]? with
    | none => (s, .ok .unit)
    | some x => ({ s with its := s.its ++ [x] }, .ok .unit)
  | .default => ({ s with its := s.its ++ [none] }, .ok .unit)
  | .assign i j =>
    match s.its[j]? with
    | none => (s, .ok .unit)
    | some x => ({ s with its := s.its.set i x }, .ok .unit)
  | .next i =>
    match s.its[i]? with
    | none => (s, .ok .unit)
    | some none => (s, .ub)
    | some (some p) => ({ s with its := s.its.set i (some (min (p + 1) s.vals.length)) }, .ok .unit)
  | .get i =>
    match s.its[i]? with
    | none => (s, .ok .unit)
    | some x =>
      match s.vals[s.pos x]? with
      | none => (s, .throw .outOfRange)
      | some v => (s, .ok (.val v))
  | .set i v =>
    match s.its[i]? with
    | none => (s, .ok .unit)
    | some x => if s.pos x < s.vals.length then ({ s with vals := s.vals.set (s.pos x) v }, .ok .unit) else (s, .throw .outOfRange)
  | .eq i j =>
    match s.its[i]?, s.its[j]? with
    | some a, some b => (s, .ok (.bool (s.pos a = s.pos b)))
    | _, _ => (s, .ok .unit)

def Spec.run (s : Spec) : List Op → List (Out Obs)
  | [] => []
  | op :: ops =>
    match s.step op with
    | (_, .ub) => [.ub]
    | (s, o) => o :: s.run ops

end Verif.LoadAll
