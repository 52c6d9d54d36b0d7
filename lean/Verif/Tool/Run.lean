import Verif.Tool.VarshProps
/-!
# varsh: what it does after the command line has been parsed (src/varsh.cc 42-99, 195-231)

The parts of the library varsh calls that have models of their own are parameters here (`Lib`), as the theorems hold
whatever they do.  Simplified: opening files and writing cannot fail, and what is written to a stream is not lost when
the program ends by `exit` or an exception; the schema loader is the list of its search paths.
-/
namespace Verif.Tool
open Verif Verif.Args JsonDrv Schema

/-- The library: reading a document in a format, with or without payload, from a file or (`none`) the standard input;
reading a file in whatever format it is in; writing a document with parameters; flattening and expanding; whether a
document is valid under a schema, with the directories schemas are looked for in; `oss << double`. -/
structure Lib where
  read : Bool → Format → Option Bytes → Out Val
  readAny : Bytes → Out Val
  write : Bool → Format → Val → Val → Out Bytes
  flatten : Val → Val → Out Val
  expand : Val → Val → Out Val
  valid : List Bytes → Val → Val → Out Bool
  fltText : UInt64 → Bytes

/-- `conf.GetPath(p, false).AsBool()` (src/varsh.cc 57, 60). -/
def flagAt (conf : Val) (p : VPath) : Out Bool := asBool (getPathDef conf p (.bool false))

/-- "extension/flatten", "extension/expand" and "extension/params" (src/varsh.cc 57-61). -/
def pFlatten : VPath := [.key [101, 120, 116, 101, 110, 115, 105, 111, 110], .key [102, 108, 97, 116, 116, 101, 110]]
def pExpand : VPath := [.key [101, 120, 116, 101, 110, 115, 105, 111, 110], .key [101, 120, 112, 97, 110, 100]]
def pParams : VPath := [.key [101, 120, 116, 101, 110, 115, 105, 111, 110], .key [112, 97, 114, 97, 109, 115]]
/-- "sparams" (src/varsh.cc 93). -/
def kSparams : Bytes := [115, 112, 97, 114, 97, 109, 115]

/-- Flattening or expanding, if asked for (src/varsh.cc 57-62). -/
def reshape (L : Lib) (conf data : Val) : Out Val := do
  if ← flagAt conf pFlatten then L.flatten data (← getPath conf pParams)
  else if ← flagAt conf pExpand then L.expand data (← getPath conf pParams)
  else .ok data

/-- The loop over the schemas (src/varsh.cc 66-72); `false`: one of them is not met. -/
def validAll (L : Lib) (dirs : List Bytes) (data : Val) : List Val → Out Bool
  | [] => .ok true
  | x :: xs => do if ← L.valid dirs x data then validAll L dirs data xs else .ok false

/-- `conf.Contains("schemas")` and the loop (src/varsh.cc 65-73).  `ListBegin` turns a null into an empty list and
throws for other values. -/
def checkSchemas (L : Lib) (dirs : List Bytes) (conf data : Val) : Out Bool :=
  match getKey? conf vSchemas with
  | none => .ok true
  | some (.list xs) => validAll L dirs data xs
  | some .null => .ok true
  | some _ => .throw .unableToConvert

/-- `SetPath` with a text (include/Variant/Variant.h 296). -/
def setPathText (v : Val) (p : Bytes) (x : Val) : Out Val := do
  let q ← PathM.parsePath p
  match setPath v q x with
  | (v', none) => .ok v'
  | (_, some e) => .throw e

/-- `GetPath` with a text (include/Variant/Variant.h 280). -/
def getPathText (v : Val) (p : Bytes) : Out Val := do getPath v (← PathM.parsePath p)

/-- Setting or selecting (src/varsh.cc 74-84). -/
def select (L : Lib) (conf data : Val) : Out Val :=
  match getKey? conf vSet with
  | some x => match getKey? conf vPath with
    | none => .ok x
    | some p => do setPathText data (← Build.asString L.fltText p) x
  | none => match getKey? conf vPath with
    | none => .ok data
    | some p => do getPathText data (← Build.asString L.fltText p)

/-- The keys of a map, one per line (src/varsh.cc 86-88).  `MapBegin` turns a null into an empty map and throws for
other values. -/
def keyLines : Val → Out Bytes
  | .map m => .ok (m.flatMap fun e => e.1 ++ [10])
  | .null => .ok []
  | _ => .throw .unableToConvert

/-- Writing (src/varsh.cc 85-98). -/
def output (L : Lib) (conf : Val) (stype : Format) (data : Val) : Out Bytes := do
  if ← boolOr conf vList false then keyLines data
  else if ← boolOr conf vLen false then
    let n ← sizeOut data
    return natDec n ++ [10]
  else if ← boolOr conf vPayload false then L.write true stype data ((getKey? conf kSparams).getD .null)
  else return (← L.write false stype data ((getKey? conf kSparams).getD .null)) ++ [10]

/-- `Process` (src/varsh.cc 42-99): what is written for one input; `none` is `exit(1)`.  Reading with a format that
has no value is undefined behaviour. -/
def process (L : Lib) (dirs : List Bytes) (conf : Val) (stype : Option Format) (src : Option Bytes) : Out (Option Bytes) := do
  match ← inputFormat conf with
  | none => .ub
  | some itype =>
    let data ← L.read (← boolOr conf vPayloadIn false) itype src
    let data ← reshape L conf data
    if ← checkSchemas L dirs conf data then
      let data ← select L conf data
      match stype with
      | none => .ub
      | some stype => return some (← output L conf stype data)
    else return none

/-- `c_str()`. -/
def cText (b : Bytes) : Bytes := b.takeWhile (· ≠ 0)

/-- A list from the configuration, for the loops over it: `ListBegin` turns a null into an empty list and throws for
other values. -/
def listOf : Val → Out (List Val)
  | .list xs => .ok xs
  | .null => .ok []
  | _ => .throw .unableToConvert

/-- The calls of `AddPath` (src/varsh.cc 203-209). -/
def schemaDirs (L : Lib) (conf : Val) : Out (List Bytes) :=
  match getKey? conf vSchemaPath with
  | none => .ok [[46]]
  | some v => do
    let xs ← listOf v
    let ps ← xs.mapM (Build.asString L.fltText)
    return [46] :: ps

/-- `state.conf["set"] = DeserializeGuessFile(...)` (src/varsh.cc 211-213). -/
def withSetFile (L : Lib) (conf : Val) : Out Val :=
  match getKey? conf vSetFile with
  | none => .ok conf
  | some f => do
    let x ← L.readAny (cText (← Build.asString L.fltText f))
    .ok (setKey conf vSet x).1

/-- The file that is written to, or the standard output (src/varsh.cc 215-220). -/
def target (L : Lib) (conf : Val) : Out (Option Bytes) :=
  match getKey? conf vOutput with
  | none => .ok none
  | some f => do return some (cText (← Build.asString L.fltText f))

/-- How varsh ends: normally, with `exit(1)`, or by an exception nobody catches. -/
inductive Ending where
  | done | failed | threw (e : Err) | undefined

/-- What a step that does not return makes of the program. -/
def stopped {α : Type} : Out α → Ending
  | .ok _ => .done
  | .throw e => .threw e
  | .ub => .undefined

/-- One input (src/varsh.cc 225-226, 229). -/
def oneInput (L : Lib) (dirs : List Bytes) (conf : Val) (stype : Option Format) (src : Option Val) : Out (Option Bytes) :=
  match src with
  | none => process L dirs conf stype none
  | some x => do process L dirs conf stype (some (cText (← Build.asString L.fltText x)))

/-- The loop over the inputs (src/varsh.cc 222-230): what is written, and how it ends. -/
def inputsLoop (L : Lib) (dirs : List Bytes) (conf : Val) (stype : Option Format) : List (Option Val) → Bytes × Ending
  | [] => ([], .done)
  | src :: r => match oneInput L dirs conf stype src with
    | .ok (some b) => let (bs, e) := inputsLoop L dirs conf stype r; (b ++ bs, e)
    | .ok none => ([], .failed)
    | .throw e => ([], .threw e)
    | .ub => ([], .undefined)

/-- The inputs: the names in "input", or the standard input (src/varsh.cc 222-230). -/
def inputsOf (conf : Val) : Out (List (Option Val)) :=
  match getKey? conf vInput with
  | none => .ok [none]
  | some v => do return (← listOf v).map some

/-- What varsh did: the file written to (`none`: the standard output), what was written and how it ended. -/
structure Run where
  file : Option Bytes
  written : Bytes
  ending : Ending

/-- From `Parse` to the opening of the output (src/varsh.cc 198-220). -/
def setUp (L : Lib) (conf : Val) : Out (Option Format × List Bytes × Val × Option Bytes) := do
  let stype ← outputFormat conf
  let dirs ← schemaDirs L conf
  let conf ← withSetFile L conf
  let file ← target L conf
  return (stype, dirs, conf, file)

/-- `main` after `Parse` (src/varsh.cc 198-231). -/
def varshMain (L : Lib) (conf : Val) : Run :=
  match setUp L conf with
  | .ok (stype, dirs, conf, file) => match inputsOf conf with
    | .ok srcs => let r := inputsLoop L dirs conf stype srcs; ⟨file, r.1, r.2⟩
    | o => ⟨file, [], stopped o⟩
  | o => ⟨none, [], stopped o⟩

end Verif.Tool
