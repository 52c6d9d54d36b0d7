import Verif.Args.World
import Verif.Json.Emit
/-!
# The help (src/ArgParse.cc 1064-1172, 1563-1595, 1684-1719)

What is printed on the standard error if the help is printed to the end.  What was printed before an exception is not
modelled.
-/

namespace Verif.Args
open Verif JsonDrv Schema

/-- An `ArgParse` (src/ArgParse.cc 293-450): what parsing uses, and the texts of the help. -/
structure Parser where
  st : St
  title : Bytes
  description : Bytes
  epilog : Bytes
  deriving Repr

/-! ## One entry -/

/-- The choices with " | " between them (src/ArgParse.cc 1568-1575). -/
def choiceText (w : World) : List Val → Out Bytes
  | [] => .ok []
  | [v] => Build.asString w.fo.fltText v
  | v :: u :: vs => do
    let a ← Build.asString w.fo.fltText v
    let r ← choiceText w (u :: vs)
    return a ++ [32, 124, 32] ++ r

/-- "yes|no" (src/ArgParse.cc 1578) -/
def yesNo : Bytes := [121, 101, 115, 124, 110, 111]
/-- "FILE" (src/ArgParse.cc 1589) -/
def fileWord : Bytes := [70, 73, 76, 69]
/-- "XXX" (src/ArgParse.cc 1581) -/
def noTitle : Bytes := [88, 88, 88]

/-- What stands for the value if there are no choices (src/ArgParse.cc 1577-1582). -/
def valueWord (w : World) (c : Config) : Out Bytes := if c.ty = .bool then .ok yesNo else textOr w c.opt kTitle noTitle

/-- `MakeArgString` (src/ArgParse.cc 1563-1595). -/
def argString (w : World) (c : Config) : Out Bytes :=
  let value := match optGet c kEnum with
    | some (.list xs) => choiceText w xs
    | _ => valueWord w c
  match c.action with
  | .store => value
  | .append => value
  | .config => .ok fileWord
  | .configJson => .ok fileWord
  | .configYaml => .ok fileWord
  | .configPlist => .ok fileWord
  | _ => .ok []

/-- The names of an option (src/ArgParse.cc 1687-1695). -/
def optionNames (o : Opt) : Bytes :=
  (if o.short > 0 then [45, (toChar o.short).toUInt8] else []) ++
  (if o.short > 0 ∧ o.long ≠ [] then [44, 32] else []) ++
  (if o.long ≠ [] then [45, 45] ++ o.long else [])

/-- The value of an option, if it takes one (src/ArgParse.cc 1696-1698, 1704-1706). -/
def argPart (w : World) (c : Config) (lead : Bytes) : Out Bytes :=
  if hasArg c.action then (lead ++ ·) <$> argString w c else .ok []

/-- The environment variable (src/ArgParse.cc 1699-1707). -/
def envPart (w : World) (o : Opt) : Out Bytes :=
  match optGet o.cfg kEnv with
  | none => .ok []
  | some e => do
    let n ← Build.asString w.fo.fltText e
    let a ← argPart w o.cfg [61]
    return (if o.short > 0 ∨ o.long ≠ [] then [10, 9] else []) ++ [101, 110, 118, 58, 32, 36] ++ n ++ a

/-- The help text (src/ArgParse.cc 1708). -/
def textPart (w : World) (c : Config) : Out Bytes :=
  match optGet c kDescription with
  | none => .throw .key
  | some v => Build.asString w.fo.fltText v

/-- `SerializeJSON(os.rdbuf(), def)` with the default settings (src/JSONEmitter.cc 41-53); the stream takes whole blocks. -/
def jsonOf (w : World) (v : Val) : Out Bytes := JsonEmit.serialize w.jsonFlt ⟨false, false, 4, 17⟩ (fun _ => 4294967295) v

/-- " (default: " (src/ArgParse.cc 1713) -/
def defaultWord : Bytes := [32, 40, 100, 101, 102, 97, 117, 108, 116, 58, 32]

/-- The default, unless it is a list or a map (src/ArgParse.cc 1710-1717). -/
def defaultPart (w : World) (c : Config) : Out Bytes :=
  match optGet c kDefault with
  | none => .ok []
  | some (.list _) => .ok []
  | some (.map _) => .ok []
  | some v => (fun t => defaultWord ++ t ++ [41]) <$> jsonOf w v

/-- `HelpLine` (src/ArgParse.cc 1684-1719). -/
def helpLine (w : World) (adv : Bool) (o : Opt) : Out Bytes :=
  if o.cfg.advanced && !adv then .ok []
  else do
    let a ← argPart w o.cfg [32]
    let e ← envPart w o
    let d ← textPart w o.cfg
    let f ← defaultPart w o.cfg
    return [9] ++ optionNames o ++ a ++ e ++ [10, 9, 9] ++ d ++ f ++ [10]

/-- One line after the other. -/
def helpLines (w : World) (adv : Bool) : List Opt → Out Bytes
  | [] => .ok []
  | o :: os => do
    let a ← helpLine w adv o
    let r ← helpLines w adv os
    return a ++ r

/-! ## The usage -/

/-- What the usage of an argument is put together from: " A", " [A", " ..." and "]". -/
inductive Use where
  | word | opened | more | closed
  deriving DecidableEq, Repr

/-- The text of the parts, for the argument `a`. -/
def Use.text (a : Bytes) : Use → Bytes
  | .word => [32] ++ a
  | .opened => [32, 91] ++ a
  | .more => [32, 46, 46, 46]
  | .closed => [93]

/-- The usage of an argument with these `minArgs` and `maxArgs` (src/ArgParse.cc 1078-1093). -/
def usage (m n : Nat) : List Use :=
  if m = 0 ∧ n = 0 then [.opened, .opened, .more, .closed, .closed]
  else List.replicate m .word ++
    (if n > m then List.replicate (n - m) .opened ++ List.replicate (n - m) .closed
     else if n < m then [.opened, .more, .closed] else [])

/-- The usage of an argument (src/ArgParse.cc 1074-1093). -/
def usagePart (w : World) (c : Config) : Out Bytes := do
  let m ← setting w c kMinArgs
  let n ← setting w c kMaxArgs
  let a ← argString w c
  return (usage m n).flatMap (Use.text a)

/-- The usage of all arguments (src/ArgParse.cc 1073-1095). -/
def usageParts (w : World) : List Opt → Out Bytes
  | [] => .ok []
  | o :: os => do
    let a ← usagePart w o.cfg
    let r ← usageParts w os
    return a ++ r

/-! ## Where the options go -/

/-- The entries with these numbers: `GetOpt` (src/ArgParse.cc 344-346) of an unknown number is undefined. -/
def entriesOf (s : St) : List Int32 → Out (List Opt)
  | [] => .ok []
  | i :: is => match s.entry i with
    | none => .ub
    | some o => (o :: ·) <$> entriesOf s is

/-- A `std::set<std::string>`, in its order. -/
def inOrder (gs : List Bytes) : List Bytes := (gs.foldl (fun m g => AMap.set m g ()) []).map (·.1)

/-- Whether there is something to print for a group (src/ArgParse.cc 1124). -/
def Group.titled (g : Group) : Bool := !g.title.isEmpty || !g.description.isEmpty

/-- The loop over the groups of an option (src/ArgParse.cc 1116-1140): what it prints, and the group the option goes to. -/
def findHeading (s : St) : List Bytes → Bytes × Option (Bytes × Group)
  | [] => ([], none)
  | n :: ns => match find s.groups n with
    | none => ([71, 114, 111, 117, 112, 32] ++ n ++ [32, 114, 101, 102, 101, 114, 101, 110, 99, 101, 100, 32, 98, 117, 116, 32, 100, 111, 101, 115, 32, 110, 111, 116, 32, 101, 120, 105, 115, 116, 10] ++ (findHeading s ns).1, (findHeading s ns).2)
    | some g => if g.titled then ([], some (n, g)) else findHeading s ns

/-- `PrintHelpGroup` (src/ArgParse.cc 1064-1069). -/
structure HelpGroup where
  title : Bytes
  description : Bytes
  advanced : Bool
  members : List Opt

/-- What was printed, `ungrouped` and `groupings` (src/ArgParse.cc 1110-1111). -/
structure Sections where
  printed : Bytes
  ungrouped : List Opt
  groupings : List (Bytes × HelpGroup)

/-- One option (src/ArgParse.cc 1113-1144). -/
def placeOption (s : St) (S : Sections) (o : Opt) : Sections :=
  match findHeading s (inOrder o.cfg.groups) with
  | (t, none) => { S with printed := S.printed ++ t, ungrouped := S.ungrouped ++ [o] }
  | (t, some (n, g)) =>
    { S with
      printed := S.printed ++ t
      groupings := match find S.groupings n with
        | none => insert keyLt S.groupings n ⟨g.title, g.description, g.advanced, [o]⟩
        | some _ => S.groupings.map fun (k, x) => (k, if k = n then { x with members := x.members ++ [o] } else x) }

/-- All options (src/ArgParse.cc 1113-1144). -/
def placeOptions (s : St) (os : List Opt) : Sections := os.foldl (placeOption s) ⟨[], [], []⟩

/-- A line, if there is something on it. -/
def lineOf (t : Bytes) : Bytes := if t ≠ [] then t ++ [10] else []

/-- The groups (src/ArgParse.cc 1150-1167). -/
def groupParts (w : World) (adv : Bool) : List (Bytes × HelpGroup) → Out Bytes
  | [] => .ok []
  | (_, g) :: gs =>
    if g.advanced && !adv then groupParts w adv gs
    else do
      let a ← helpLines w adv g.members
      let r ← groupParts w adv gs
      return [10] ++ lineOf g.title ++ lineOf g.description ++ a ++ r

/-! ## All of it -/

/-- ": [options]" (src/ArgParse.cc 1072) -/
def usageWord : Bytes := [58, 32, 91, 111, 112, 116, 105, 111, 110, 115, 93]
/-- "Arguments:\n" (src/ArgParse.cc 1101) -/
def argumentsWord : Bytes := [65, 114, 103, 117, 109, 101, 110, 116, 115, 58, 10]
/-- "Options:\n" (src/ArgParse.cc 1108) -/
def optionsWord : Bytes := [79, 112, 116, 105, 111, 110, 115, 58, 10]

/-- `PrintHelp` (src/ArgParse.cc 1071-1171), before it exits with 0. -/
def helpText (w : World) (P : Parser) (adv : Bool) : Out Bytes := do
  let as_ ← entriesOf P.st P.st.reg.arguments
  let u ← usageParts w as_
  let la ← helpLines w true as_
  let os ← entriesOf P.st P.st.reg.options
  let S := placeOptions P.st os
  let lo ← helpLines w adv S.ungrouped
  let g ← groupParts w adv S.groupings
  return P.title ++ usageWord ++ u ++ [10, 10] ++ (if P.description ≠ [] then P.description ++ [10, 10] else []) ++
    (if P.st.reg.arguments ≠ [] then argumentsWord else []) ++ la ++ (if P.st.reg.options ≠ [] then optionsWord else []) ++
    S.printed ++ lo ++ g ++ (if P.epilog ≠ [] then [10] ++ P.epilog ++ [10, 10] else [])

/-- Whether the help is printed to the end; its title, description and last text do not matter. -/
def helpRuns (w : World) (s : St) (adv : Bool) : Out Unit := (fun _ => ()) <$> helpText w ⟨s, [], [], []⟩ adv

end Verif.Args
