import Verif.Args.Help
/-!
# What the help shows (specification for C106)

Where everything stands.  An option is listed under the first, in the order of their names, of its groups with a title or a
description, or before all groups if there is none.
-/

namespace Verif.Args
open Verif JsonDrv Schema

/-- The group has a title or a description. -/
def heads (s : St) (n : Bytes) : Bool :=
  match find s.groups n with
  | some g => decide (g.title ≠ []) || decide (g.description ≠ [])
  | none => false

/-- The option is listed under the group. -/
def under (s : St) (n : Bytes) (o : Opt) : Bool :=
  o.cfg.groups.contains n && heads s n && o.cfg.groups.all fun m => !heads s m || !keyLt m n

/-- The option is listed before the groups. -/
def loose (s : St) (o : Opt) : Bool := o.cfg.groups.all fun n => !heads s n

/-- What is printed: a text, the usage of an argument, or the entry of an option or argument. -/
inductive Piece where
  | text (t : Bytes)
  | usage (o : Opt)
  | entry (o : Opt)

/-- The entries of options; the advanced ones only if wanted. -/
def entriesIf (adv : Bool) (os : List Opt) : List Piece := (os.filter fun o => adv || !o.cfg.advanced).map .entry

/-- The options listed under a group; none if the group is advanced and that is not wanted. -/
def groupPieces (s : St) (adv : Bool) (os : List Opt) (e : Bytes × Group) : List Piece :=
  if (os.filter (under s e.1)).isEmpty || (e.2.advanced && !adv) then []
  else .text ([10] ++ lineOf e.2.title ++ lineOf e.2.description) :: entriesIf adv (os.filter (under s e.1))

/-- The help of a parser with the arguments `as_` and the options `os`, in the order they were added. -/
def layout (P : Parser) (adv : Bool) (as_ os : List Opt) : List Piece :=
  [.text (P.title ++ usageWord)] ++ as_.map .usage ++
  [.text ([10, 10] ++ (if P.description ≠ [] then P.description ++ [10, 10] else []) ++ if as_ ≠ [] then argumentsWord else [])] ++
  as_.map .entry ++
  [.text (if os ≠ [] then optionsWord else [])] ++
  entriesIf adv (os.filter (loose P.st)) ++ P.st.groups.flatMap (groupPieces P.st adv os) ++
  [.text (if P.epilog ≠ [] then [10] ++ P.epilog ++ [10, 10] else [])]

/-- The text of a piece. -/
def Piece.render (w : World) : Piece → Out Bytes
  | .text t => .ok t
  | .usage o => usagePart w o.cfg
  | .entry o => helpLine w true o

/-- One piece after the other. -/
def renderAll (w : World) : List Piece → Out Bytes
  | [] => .ok []
  | p :: ps => do
    let a ← p.render w
    let r ← renderAll w ps
    return a ++ r

/-- The entries printed. -/
def printedEntries (ps : List Piece) : List Opt := ps.filterMap fun
  | .entry o => some o
  | _ => none

/-- Whether the help shows an option: the advanced help shows all; the other those that are not advanced and not under an
advanced group. -/
def visible (s : St) (adv : Bool) (o : Opt) : Bool :=
  adv || (!o.cfg.advanced && s.groups.all fun e => !(under s e.1 o && e.2.advanced))

/-- The groups of all entries are groups of the parser. -/
def Grouped (s : St) : Prop := ∀ k o, (k, o) ∈ s.reg.optionMap → ∀ n ∈ o.cfg.groups, n ∈ s.groups.map (·.1)

end Verif.Args
