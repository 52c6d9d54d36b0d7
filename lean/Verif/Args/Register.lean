import Verif.Path.Model
import Verif.Val.Basic
/-!
# Registering command-line options (src/ArgParse.cc 293-408, include/Variant/ArgParse.h)

`std::map` is an association list in key order.  A handle (`ArgParseOption`, a pointer to the
entry in `option_map`) is the entry's number.
-/

namespace Verif.Args
open Verif

/-- `ArgParseAction` (include/Variant/ArgParse.h 15-30). -/
inductive Action where
  | unknown | store | storeConst | storeTrue | storeFalse | append | count | help | advHelp
  | config | configJson | configYaml | configPlist | printConfig
  deriving DecidableEq, Repr

/-- The fields of `ArgParseOptImpl` (src/ArgParse.cc 192-228) the setters and `Init` change:
`type`, `groups`, `action`, `required`, `advanced` and `opt`. -/
structure Config where
  ty : Ty
  groups : List Bytes
  action : Action
  required : Bool
  advanced : Bool
  opt : Val
  deriving Repr

/-- "description" (src/ArgParse.cc 1322) -/
def kDescription : Bytes := [100, 101, 115, 99, 114, 105, 112, 116, 105, 111, 110]
/-- "title" (src/ArgParse.cc 1318) -/
def kTitle : Bytes := [116, 105, 116, 108, 101]
/-- "minArgs" (src/ArgParse.cc 359) -/
def kMinArgs : Bytes := [109, 105, 110, 65, 114, 103, 115]
/-- "maxArgs" (src/ArgParse.cc 359) -/
def kMaxArgs : Bytes := [109, 97, 120, 65, 114, 103, 115]

/-- `ArgParseOptImpl` (src/ArgParse.cc 192-228). -/
structure Opt where
  path : VPath
  id : Int32
  short : Int32
  long : Bytes
  cfg : Config
  result : Val
  deriving Repr

/-- `std::map::find` on a map with any keys. -/
def find {κ α : Type} [DecidableEq κ] (m : List (κ × α)) (k : κ) : Option α :=
  match m with
  | [] => none
  | (k', v) :: r => if k' = k then some v else find r k

/-- `std::map::insert`: an existing entry stays as it is. -/
def insert {κ α : Type} [DecidableEq κ] (lt : κ → κ → Bool) (m : List (κ × α)) (k : κ) (v : α) : List (κ × α) :=
  match m with
  | [] => [(k, v)]
  | (k', v') :: r =>
    if k' = k then (k', v') :: r
    else if lt k k' then (k, v) :: (k', v') :: r
    else (k', v') :: insert lt r k v

/-- Order of `int` and `char` keys. -/
def ltInt (a b : Int32) : Bool := a < b
/-- Order of `char` keys. -/
def ltChar (a b : Int8) : Bool := a < b

/-- The registrations in `ArgParseImpl` (src/ArgParse.cc 286-300, 424-449). -/
structure Reg where
  /-- `option_count` -/
  count : Int32
  optionMap : List (Int32 × Opt)
  options : List Int32
  longs : List (Bytes × Int32)
  shorts : List (Int8 × Int32)
  paths : List (Bytes × Int32)
  arguments : List Int32
  resolve : Bool
  deriving Repr

/-- A new `ArgParse` (src/ArgParse.cc 288-295). -/
def Reg.init : Reg := ⟨256, [], [], [], [], [], [], false⟩

/-- `(char)shortOpt`: `char` is signed (x86). -/
def toChar (short : Int32) : Int8 := short.toInt8

/-- The number of a new entry (src/ArgParse.cc 406-407): the short option itself, or the next value of the
counter, whose overflow is undefined. -/
def nextId (s : Reg) (short : Int32) : Reg × Out Int32 :=
  if short > 0 then (s, .ok short)
  else if s.count = Int32.maxValue then (s, .ub)
  else ({ s with count := s.count + 1 }, .ok (s.count + 1))

/-- The short option after `CheckExisting` (src/ArgParse.cc 391-400). -/
def checkShort (s : Reg) (short : Int32) : Out Int32 :=
  if short > 0 ∧ (find s.shorts (toChar short)).isSome then
    if s.resolve then .ok 0 else .throw .runtime
  else .ok short

/-- `CheckExisting` (src/ArgParse.cc 385-408): the number of the new entry and its short option. -/
def checkExisting (s : Reg) (path : VPath) (short : Int32) (long : Bytes) : Reg × Out (Int32 × Int32) :=
  if (find s.paths (PathM.pathString path)).isSome then (s, .throw .runtime)
  else match checkShort s short with
    | .ok short =>
      if long ≠ [] ∧ (find s.longs long).isSome then (s, .throw .runtime)
      else match nextId s short with
        | (s, .ok id) => (s, .ok (id, short))
        | (s, .throw e) => (s, .throw e)
        | (s, .ub) => (s, .ub)
    | .throw e => (s, .throw e)
    | .ub => (s, .ub)

/-- The constructor of `ArgParseOptImpl` (src/ArgParse.cc 1300-1323): the last element of an empty path is
undefined.  The title and the help text. -/
def newOpt (id : Int32) (path : VPath) (short : Int32) (long help : Bytes) (action : Action) : Out Opt :=
  let title (t : Bytes) : Val := .map [(kDescription, .str help), (kTitle, .str t)]
  match path.getLast? with
  | none => .ub
  | some (.key k) => .ok ⟨path, id, short, long, ⟨.null, [], action, false, false, title k⟩, .null⟩
  | some (.index _) => .ok ⟨path, id, short, long, ⟨.null, [], action, false, false, title (PathM.pathString path)⟩, .null⟩

/-- Entering a new option in all the tables (src/ArgParse.cc 313-324). -/
def enterOption (s : Reg) (o : Opt) : Reg :=
  { s with
    options := s.options ++ [o.id]
    optionMap := insert ltInt s.optionMap o.id o
    longs := if o.long ≠ [] then insert keyLt s.longs o.long o.id else s.longs
    shorts := if o.short > 0 then insert ltChar s.shorts (toChar o.short) o.id else s.shorts
    paths := insert keyLt s.paths (PathM.pathString o.path) o.id }

/-- `AddOption` (src/ArgParse.cc 302-325) with the number of the entry it returns. -/
def addOption (s : Reg) (keypath : Bytes) (short : Int32) (long help : Bytes) (action : Action) : Reg × Out Int32 :=
  match PathM.parsePath keypath with
  | .ok path =>
    match checkExisting s path short long with
    | (s, .ok (id, short)) =>
      if long = [] ∧ short = 0 then (s, .throw .runtime)                      -- 308-311
      else match newOpt id path short long help action with
        | .ok o => (enterOption s o, .ok id)
        | .throw e => ({ s with options := s.options ++ [id] }, .throw e)
        | .ub => ({ s with options := s.options ++ [id] }, .ub)
    | (s, .throw e) => (s, .throw e)
    | (s, .ub) => (s, .ub)
  | .throw e => (s, .throw e)
  | .ub => (s, .ub)

/-- What `Init` of a new argument changes (src/ArgParse.cc 359, 1597-1606): it merges `maxArgs` and
`minArgs` into the entry's table. -/
def argDefaults (c : Config) : Config :=
  { c with opt := match c.opt with
    | .map m => .map (AMap.set (AMap.set m kMaxArgs (.int 1)) kMinArgs (.int 1))
    | v => v }

/-- Entering a new argument in all the tables (src/ArgParse.cc 354-359). -/
def enterArgument (s : Reg) (o : Opt) : Reg :=
  { s with
    arguments := s.arguments ++ [o.id]
    optionMap := insert ltInt s.optionMap o.id { o with cfg := argDefaults o.cfg }
    paths := insert keyLt s.paths (PathM.pathString o.path) o.id }

/-- `AddArgument` (src/ArgParse.cc 348-361) with the number of the entry it returns. -/
def addArgument (s : Reg) (keypath help : Bytes) (action : Action) : Reg × Out Int32 :=
  match PathM.parsePath keypath with
  | .ok path =>
    match checkExisting s path 0 [] with
    | (s, .ok (id, _)) =>
      match newOpt id path 0 [] help action with
      | .ok o => (enterArgument s o, .ok id)
      | .throw e => ({ s with arguments := s.arguments ++ [id] }, .throw e)
      | .ub => ({ s with arguments := s.arguments ++ [id] }, .ub)
    | (s, .throw e) => (s, .throw e)
    | (s, .ub) => (s, .ub)
  | .throw e => (s, .throw e)
  | .ub => (s, .ub)

/-- Changing an entry through its handle: every setter of `ArgParseOption` (src/ArgParse.cc 456-589) and
`Init` (1597-1606) is some change of these fields.  An unknown number cannot be had. -/
def update (m : List (Int32 × Opt)) (id : Int32) (f : Config → Config) : List (Int32 × Opt) :=
  m.map fun (k, o) => (k, if k = id then { o with cfg := f o.cfg } else o)

/-- Calls a program makes to set an `ArgParse` up.  `AddFlag`, `AddConfigDefaults`, `Merge` (src/ArgParse.cc
381-384, 1172-1217) and the help options `Parse` adds (949-960) are sequences of these. -/
inductive Call where
  | conflictResolution (on : Bool)
  | addOption (keypath : Bytes) (short : Int32) (long help : Bytes) (action : Action)
  | addArgument (keypath help : Bytes) (action : Action)
  | configure (id : Int32) (f : Config → Config)

/-- One call; `none` for calls that return nothing. -/
def call (s : Reg) : Call → Reg × Out (Option Int32)
  | .conflictResolution on => ({ s with resolve := on }, .ok none)
  | .addOption k sh l h a =>
    let r := addOption s k sh l h a
    (r.1, some <$> r.2)
  | .addArgument k h a =>
    let r := addArgument s k h a
    (r.1, some <$> r.2)
  | .configure id f => ({ s with optionMap := update s.optionMap id f }, .ok none)

/-- Any sequence of calls; exceptions are caught and the program goes on, undefined behaviour ends it
(`none`). -/
def calls (s : Reg) : List Call → Option Reg
  | [] => some s
  | c :: cs => match (call s c).2 with
    | .ub => none
    | _ => calls (call s c).1 cs

end Verif.Args
