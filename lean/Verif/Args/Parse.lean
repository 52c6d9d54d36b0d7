import Verif.Args.Help
/-!
# Parsing a command line (src/ArgParse.cc 740-743, 790-821, 947-1060, 1219-1260, 1325-1676)

`getopt_long` is not modelled: what it returns is an arbitrary list of events (number returned, `optarg`), and
the words left over after it.  Reading files, the environment, regular expressions and `strtod` are parameters
as well.  Messages are not modelled.  Values are trees: a default or constant shared with the
entry is a copy here.
-/

namespace Verif.Args
open Verif JsonDrv Schema

/-! ## Requirements -/

/-- Throw if this holds. -/
def refuse (b : Bool) : Out Unit := if b then .throw .runtime else .ok ()

/-- A check of a setting, if it is there. -/
def needs (c : Config) (k : Bytes) (f : Val → Out Unit) : Out Unit :=
  match optGet c k with
  | none => .ok ()
  | some x => f x

/-- The pattern (src/ArgParse.cc 1407-1433). -/
def checkPattern (w : World) (s : Bytes) (x : Val) : Out Unit :=
  match Build.asString w.fo.fltText x with
  | .ok pat => match w.regex (pat.takeWhile (· ≠ 0)) with
    | none => .throw .runtime
    | some g => refuse (!g (s.takeWhile (· ≠ 0)))
  | .throw e => .throw e
  | .ub => .ub

/-- The choices (src/ArgParse.cc 1455-1476). -/
def checkEnum (w : World) (v x : Val) : Out Unit :=
  match x with
  | .list xs => refuse (!xs.any (veq w.p v))
  | _ => .throw .runtime

/-- What depends on the type of the value (src/ArgParse.cc 1394-1453). -/
def checkTyped (w : World) (c : Config) (v : Val) : Out Unit :=
  match v with
  | .str s => do
    needs c kMinLength (fun l => refuse (decide (cmp w.p (.uint (UInt64.ofNat (size v))) l < 0)))
    needs c kMaxLength (fun l => refuse (decide (cmp w.p (.uint (UInt64.ofNat (size v))) l > 0)))
    needs c kPattern (checkPattern w s)
  | .list _ => .ok ()
  | .map _ => .ok ()
  | .blob _ => .ok ()
  | .null => .ok ()
  | .bool _ => .ok ()
  | _ => do
    needs c kMinimum (fun l => refuse (decide (cmp w.p v l < 0)))
    needs c kMaximum (fun l => refuse (decide (cmp w.p v l > 0)))

/-- `CheckRequirements` (src/ArgParse.cc 1392-1476). -/
def checkRequirements (w : World) (c : Config) (v : Val) : Out Unit := do
  checkTyped w c v
  needs c kEnum (checkEnum w v)

/-! ## Converting a word -/

/-- `strtoull` and the checks after it (src/ArgParse.cc 1530-1538). -/
def parseUInt (t : Bytes) : Out Val :=
  match Ext.strtoull t with
  | none => .throw .runtime
  | some (n, r) => if r ≠ [] then .throw .runtime else .ok (.uint (UInt64.ofNat n))

/-- `strtoll` and the checks after it (src/ArgParse.cc 1520-1529); falls through to `strtoull`. -/
def parseInt (t : Text) : Out Val :=
  let sg := Ext.sign (t.bytes.dropWhile isSpace)
  let d := spanDigits sg.2
  let n := decVal 0 d.1
  let v := Guess.strtoll sg.1 n
  let range := t.erange || (if sg.1 then decide (n > 2 ^ 63) else decide (n ≥ 2 ^ 63))
  if d.1 = [] then .throw .runtime
  else if d.2 ≠ [] then .throw .runtime
  else if v = 2 ^ 63 - 1 ∧ range = true then parseUInt t.bytes
  else .ok (.int (Int64.ofInt v))

/-- `strtod` and the checks after it (src/ArgParse.cc 1539-1550). -/
def parseFloat (w : World) (t : Bytes) : Out Val :=
  let v := w.fo.strtod t
  if (v <<< 1 = 0 ∧ w.strtodEnd t = 0) ∨ w.strtodEnd t ≠ t.length then .throw .runtime
  else .ok (.flt v)

/-- `ParseArg` (src/ArgParse.cc 1485-1561).  A missing word is a null pointer. -/
def parseArg (w : World) (c : Config) (arg : Option Text) : Out Val :=
  if hasArg c.action then
    match arg with
    | none => .ub
    | some t =>
      match c.ty with
      | .bool => .ok (.bool (ParseBool.parseBool t.bytes))
      | .int => parseInt t
      | .uint => parseUInt t.bytes
      | .flt => parseFloat w t.bytes
      | .str => .ok (.str t.bytes)
      | _ => .ok (Guess.guess w.fo t.erange t.bytes)
  else if arg.isSome then .throw .runtime
  else .ok .null

/-! ## What an option does -/

/-- The loop of `ARGACTION_APPEND` (src/ArgParse.cc 1349-1358): the result so far. -/
def appendAll (w : World) (c : Config) (r : Val) : List Val → Val × Out Unit
  | [] => (r, .ok ())
  | x :: xs =>
    match checkRequirements w c x with
    | .ok _ => match append r x with
      | (r', none) => appendAll w c r' xs
      | (r', some e) => (r', .throw e)
    | .throw e => (r, .throw e)
    | .ub => (r, .ub)

/-- What is appended: the elements of a list, or one value (src/ArgParse.cc 1349-1358). -/
def pieces : Val → List Val
  | .list xs => xs
  | v => [v]

/-- `AsInt` of numbers (src/Variant.cc 840, 899, 963): an out-of-range float is undefined behaviour. -/
def asIntNum : Val → Out Int64
  | .int i => .ok i
  | .uint u => .ok u.toInt64
  | .flt b => match LD.ofDouble b with
    | .fin n =>
      let t := Int.tdiv n (2 ^ 1074)
      if -2 ^ 63 ≤ t ∧ t < 2 ^ 63 then .ok (Int64.ofInt t) else .ub
    | _ => .ub
  | _ => .throw .unableToConvert

/-- What is added to a count (src/ArgParse.cc 1360-1365). -/
def increment (arg : Val) : Out Int64 := if isNumber arg then asIntNum arg else .ok 1

/-- Storing a result or passing an exception on. -/
def store (s : St) (id : Int32) : Out Val → Res
  | .ok v => some (setResult s id v, .ok ())
  | .throw e => some (s, .throw e)
  | .ub => some (s, .ub)

/-- `At(path)` (src/ArgParse.cc 333-340). -/
def at? (s : St) (path : VPath) : Option Int32 := find s.reg.paths (PathM.pathString path)

/-- `try { At(path)->Handle(opt); } catch (const std::runtime_error &) { ... }` (src/ArgParse.cc 1228-1230,
1233-1235). -/
def tryHandle (h : St → Int32 → Val → Res) (s : St) (path : VPath) (v : Val) (orElse : St → Res) : Res :=
  match at? s path with
  | none => orElse s
  | some id => match h s id v with
    | none => none
    | some (s', .ok _) => some (s', .ok ())
    | some (s', .throw _) => orElse s'
    | some (s', .ub) => some (s', .ub)

mutual
/-- `MergeOptions` (src/ArgParse.cc 1224-1260); `h` is `Handle`. -/
def merge (h : St → Int32 → Val → Res) (s : St) (path : VPath) : Val → Res
  | .null => some (s, .ok ())
  | .blob _ => some (s, .ok ())
  | .list xs => tryHandle h s path (.list xs) (fun s => mergeList h s path 0 xs)
  | .map m => mergeMap h s path m
  | v => tryHandle h s path v (fun s => some (s, .ok ()))
/-- The elements of a list (1236-1242). -/
def mergeList (h : St → Int32 → Val → Res) (s : St) (path : VPath) (index : UInt32) : List Val → Res
  | [] => some (s, .ok ())
  | x :: xs => andThen (merge h s (path ++ [.index index]) x) (fun s => mergeList h s path (index + 1) xs)
/-- The entries of a map (1246-1250). -/
def mergeMap (h : St → Int32 → Val → Res) (s : St) (path : VPath) : List (Bytes × Val) → Res
  | [] => some (s, .ok ())
  | (k, x) :: m => andThen (merge h s (path ++ [.key k]) x) (fun s => mergeMap h s path m)
end

/-- The configuration actions (src/ArgParse.cc 1372-1383). -/
def readConfig (w : World) (h : St → Int32 → Val → Res) (s : St) (a : Action) (arg : Val) : Res :=
  match Build.asString w.fo.fltText arg with
  | .ok name => match w.load a (name.takeWhile (· ≠ 0)) with
    | .ok v => merge h s [] v
    | .throw e => some (s, .throw e)
    | .ub => some (s, .ub)
  | .throw e => some (s, .throw e)
  | .ub => some (s, .ub)

/-- `Handle` (src/ArgParse.cc 1325-1390) of an entry; `h` is `Handle` as called for what a configuration file
says. -/
def handleOpt (w : World) (h : St → Int32 → Val → Res) (s : St) (id : Int32) (o : Opt) (arg : Val) : Res :=
  match o.cfg.action with
  | .store => store s id (do checkRequirements w o.cfg arg; return arg)
  | .storeConst => store s id (match optGet o.cfg kConst with
      | some v => .ok v
      | none => .throw .key)
  | .storeTrue => store s id (.ok (match arg with
      | .bool b => .bool b
      | _ => .bool true))
  | .storeFalse => store s id (.ok (match arg with
      | .bool b => .bool b
      | _ => .bool false))
  | .append =>
    let r := appendAll w o.cfg o.result (pieces arg)
    some (setResult s id r.1, r.2)
  | .count => store s id (do
      let i ← increment arg
      arith w.fl .add o.result (.int i))
  | .help => some ({ s with printHelp := true }, .ok ())
  | .advHelp => some ({ s with printAdv := true }, .ok ())
  | .printConfig => some ({ s with printConfig := true }, .ok ())
  | .unknown => some (s, .ok ())
  | a => readConfig w h s a arg

/-- `Handle` with at most `fuel` configuration files inside each other. -/
def handle (w : World) : Nat → St → Int32 → Val → Res
  | 0, _, _, _ => none
  | fuel + 1, s, id, arg =>
    match s.entry id with
    | none => some (s, .ub)
    | some o => handleOpt w (handle w fuel) s id o arg

/-- `HandleOption` (src/ArgParse.cc 204). -/
def handleOption (w : World) (fuel : Nat) (s : St) (id : Int32) (arg : Option Text) : Res :=
  match s.entry id with
  | none => some (s, .ub)
  | some o => match parseArg w o.cfg arg with
    | .ok v => handle w fuel s id v
    | .throw e => some (s, .throw e)
    | .ub => some (s, .ub)

/-! ## `Parse` -/

/-- The environment variable of an entry (src/ArgParse.cc 981-984). -/
def fromEnv (w : World) (fuel : Nat) (s : St) (id : Int32) (o : Opt) : Res :=
  match optGet o.cfg kEnv with
  | none => some (s, .ok ())
  | some e => match Build.asString w.fo.fltText e with
    | .ok name => match w.getenv (name.takeWhile (· ≠ 0)) with
      | none => some (s, .ok ())
      | some t => handleOption w fuel s id (some t)
    | .throw e => some (s, .throw e)
    | .ub => some (s, .ub)

/-- The first loop over all entries (src/ArgParse.cc 965-985). -/
def initOne (w : World) (fuel : Nat) (s : St) (id : Int32) : Res :=
  match s.entry id with
  | none => some (s, .ok ())
  | some o => fromEnv w fuel (if o.cfg.action = .count then setResult s id (.uint 0) else s) id o

/-- What `getopt_long` returns before -1. -/
structure Event where
  id : Int32
  arg : Option Text
  deriving Repr

/-- The `getopt_long` loop (src/ArgParse.cc 993-1001).  `false`: `PrintHelp` was called, which exits. -/
def events (w : World) (fuel : Nat) (s : St) : List Event → Option (St × Out Bool)
  | [] => some (s, .ok true)
  | e :: es =>
    if e.id = 63 ∨ (s.entry e.id).isNone then some (s, .ok false)
    else match handleOption w fuel s e.id e.arg with
      | none => none
      | some (s', .ok _) => events w fuel s' es
      | some (s', .throw x) => some (s', .throw x)
      | some (s', .ub) => some (s', .ub)

/-- The loop computing `minimum_arguments`, which is not used (src/ArgParse.cc 1004-1010). -/
def minimumArgs (w : World) (s : St) : List Int32 → Out Unit
  | [] => .ok ()
  | id :: ids => match s.entry id with
    | none => .ub
    | some o => match setting w o.cfg kMinArgs with
      | .ok n => if n > 0 then minimumArgs w s ids else .ok ()
      | .throw e => .throw e
      | .ub => .ub

/-- The words one argument takes. -/
def taken (maxArgs : Nat) (rest : List Text) : Nat := if maxArgs = 0 then rest.length else min maxArgs rest.length

/-- The loop over the arguments (src/ArgParse.cc 1011-1036). -/
def takeArgs (w : World) (fuel : Nat) (s : St) (ids : List Int32) (rest : List Text) : Res :=
  match ids with
  | [] => some (s, if rest ≠ [] then .throw .runtime else .ok ())
  | id :: ids => match s.entry id with
    | none => some (s, .ub)
    | some o => match (do let _ ← setting w o.cfg kMinArgs; setting w o.cfg kMaxArgs) with
      | .ok n =>
        if ids = [] ∧ n ≠ 0 ∧ rest.length > n then some (s, .throw .runtime)
        else andThen (forEach (fun s t => handleOption w fuel s id (some t)) s (rest.take (taken n rest)))
          (fun s => takeArgs w fuel s ids (rest.drop (taken n rest)))
      | .throw e => some (s, .throw e)
      | .ub => some (s, .ub)

/-- `!o->result.IsNull()`. -/
def given (s : St) (id : Int32) : Bool :=
  match s.entry id with
  | none => false
  | some o => match o.result with
    | .null => false
    | _ => true

/-- Whether a default may be used: nothing in a mutually exclusive group of the entry has a value
(src/ArgParse.cc 1610-1624).  `GetGroup` makes a group that is not there, not exclusive and without members. -/
def defaultAllowed (s : St) (o : Opt) : Bool :=
  o.cfg.groups.all fun g => match find s.groups g with
    | none => true
    | some g => !g.exclusive || g.members.all fun m => !given s m

/-- The default of an entry (src/ArgParse.cc 1609-1646). -/
def withDefault (s : St) (o : Opt) : Val :=
  match o.result with
  | .null => match optGet o.cfg kDefault with
    | none => .null
    | some d =>
      if defaultAllowed s o then
        match o.cfg.action with
        | .store => d
        | .storeConst => d
        | .storeTrue => d
        | .storeFalse => d
        | .append => .list [d]
        | _ => .null
      else .null
  | v => v

/-- `Size` (src/Variant.cc 284, 603, 1062, 1203, 1327, 1400). -/
def sizeOut (v : Val) : Out Nat :=
  match v with
  | .null => .ok 0
  | .str _ => .ok (size v)
  | .list _ => .ok (size v)
  | .map _ => .ok (size v)
  | .blob b => .ok (b.flatten.length % 2 ^ 32)
  | _ => .throw .invalidOperation

/-- The number of arguments of an appending option (src/ArgParse.cc 1648-1667). -/
def checkCount (w : World) (c : Config) (r : Val) : Out Unit := do
  needs c kMaxArgs (fun l => if cmp w.p l (.int 0) ≠ 0 then do
    let n ← sizeOut r
    refuse (decide (cmp w.p l (.uint (UInt64.ofNat n)) < 0)) else .ok ())
  needs c kMinArgs (fun l => do
    let n ← sizeOut r
    refuse (decide (cmp w.p l (.uint (UInt64.ofNat n)) > 0)))

/-- The checks of `FinalizeResult` (src/ArgParse.cc 1647-1675). -/
def checkResult (w : World) (c : Config) (r : Val) : Out Unit :=
  match r with
  | .null => refuse c.required
  | r => if c.action = .append then checkCount w c r else .ok ()

/-- `ArgParseOptImpl::FinalizeResult` (src/ArgParse.cc 1608-1676). -/
def finalizeOpt (w : World) (s : St) (id : Int32) : Res :=
  match s.entry id with
  | none => some (s, .ok ())
  | some o => some (setResult s id (withDefault s o), checkResult w o.cfg (withDefault s o))

/-- `ArgParseGroupImpl::FinalizeResult` (src/ArgParse.cc 790-821). -/
def finalizeGroup (s : St) (g : Group) : Out Unit :=
  if g.exclusive then
    if (g.members.filter (given s)).length > 1 then .throw .runtime
    else refuse (g.required && (g.members.filter (given s)).isEmpty)
  else .ok ()

/-- All groups. -/
def finalizeGroups (s : St) : List (Bytes × Group) → Out Unit
  | [] => .ok ()
  | (_, g) :: gs => do
    finalizeGroup s g
    finalizeGroups s gs

/-- "default-help-option" (src/ArgParse.cc 953) -/
def helpPath : Bytes := [100, 101, 102, 97, 117, 108, 116, 45, 104, 101, 108, 112, 45, 111, 112, 116, 105, 111, 110]
/-- "help" (src/ArgParse.cc 953) -/
def helpLong : Bytes := [104, 101, 108, 112]
/-- "default-adv-help-option" (src/ArgParse.cc 955) -/
def advPath : Bytes :=
  [100, 101, 102, 97, 117, 108, 116, 45, 97, 100, 118, 45, 104, 101, 108, 112, 45, 111, 112, 116, 105, 111, 110]
/-- "adv-help" (src/ArgParse.cc 955) -/
def advLong : Bytes := [97, 100, 118, 45, 104, 101, 108, 112]

/-- "Print this message and exit." (src/ArgParse.cc 953) -/
def helpSays : Bytes :=
  [80, 114, 105, 110, 116, 32, 116, 104, 105, 115, 32, 109, 101, 115, 115, 97, 103, 101, 32, 97, 110, 100, 32, 101, 120, 105, 116, 46]
/-- "Print help message including options marked as advanced." (src/ArgParse.cc 955-956) -/
def advSays : Bytes :=
  [80, 114, 105, 110, 116, 32, 104, 101, 108, 112, 32, 109, 101, 115, 115, 97, 103, 101, 32, 105, 110, 99, 108, 117, 100, 105, 110, 103, 32,
   111, 112, 116, 105, 111, 110, 115, 32, 109, 97, 114, 107, 101, 100, 32, 97, 115, 32, 97, 100, 118, 97, 110, 99, 101, 100, 46]

/-- Adding the help options with conflicts resolved (src/ArgParse.cc 949-960). -/
def addHelpOptions (s : St) : St × Out Unit :=
  if s.addHelp then
    let old := s.reg.resolve
    let r := addOption { s.reg with resolve := true } helpPath 104 helpLong helpSays .help
    match r.2 with
    | .ub => (s, .ub)
    | .throw _ => ({ s with reg := { r.1 with resolve := old } }, .ok ())
    | .ok _ =>
      if s.haveAdvanced then
        let r := addOption r.1 advPath 0 advLong advSays .advHelp
        match r.2 with
        | .ub => (s, .ub)
        | _ => ({ s with reg := { r.1 with resolve := old } }, .ok ())
      else ({ s with reg := { r.1 with resolve := old } }, .ok ())
  else (s, .ok ())

/-- `FormResult` (src/ArgParse.cc 1055-1061, 1678-1682). -/
def formResult (m : List (Int32 × Opt)) (ret : Val) : Out Val :=
  match m with
  | [] => .ok ret
  | (_, o) :: m =>
    match o.result with
    | .null => formResult m ret
    | v =>
      if hasResult o.cfg.action then
        match setPath ret o.path v with
        | (ret', none) => formResult m ret'
        | (_, some e) => .throw e
      else formResult m ret

/-- How a call of `Parse` ends. -/
inductive End where
  | returned (s : St) (v : Val)
  | exit (code : Nat)
  | escapes (e : Err)
  | ub

/-- `PrintHelp` exits; an exception is caught once (src/ArgParse.cc 1046) and thrown again by the same call in the handler. -/
def helpEnd (w : World) (s : St) (adv : Bool) : End :=
  match helpRuns w s adv with
  | .ok _ => .exit 0
  | .throw e => .escapes e
  | .ub => .ub

/-- Help and configuration requested on the command line (src/ArgParse.cc 1043-1045, 1047-1049); an exception
from printing the configuration is caught once (1046) and thrown again. -/
def printed (w : World) (s : St) (otherwise : End) : End :=
  if s.printAdv then helpEnd w s true
  else if s.printHelp then helpEnd w s false
  else if s.printConfig then
    match formResult s.reg.optionMap (.map []) with
    | .ok _ => .exit 0
    | .throw e => .escapes e
    | .ub => .ub
  else otherwise

/-- The end of `ArgParse::Parse` (src/ArgParse.cc 740-743). -/
def finish (w : World) (s : St) : End :=
  printed w s (match formResult s.reg.optionMap (.map []) with
    | .ok v => .returned s v
    | .throw e => .escapes e
    | .ub => .ub)

/-- From the arguments on (src/ArgParse.cc 1003-1042). -/
def afterOptions (w : World) (fuel : Nat) (s : St) (rest : List Text) : Res :=
  match minimumArgs w s s.reg.arguments with
  | .ok _ => andThen (takeArgs w fuel s s.reg.arguments rest) fun s =>
      andThen (forEach (finalizeOpt w) s (s.reg.optionMap.map (·.1))) fun s =>
        some (s, finalizeGroups s s.groups)
  | .throw e => some (s, .throw e)
  | .ub => some (s, .ub)

/-- How the end of the block is reported (src/ArgParse.cc 1043-1052). -/
def report (w : World) : Res → Option End
  | none => none
  | some (s, .ok _) => some (finish w s)
  | some (s, .throw _) => some (printed w s (.exit 1))
  | some (_, .ub) => some .ub

/-- After the `getopt_long` loop. -/
def afterEvents (w : World) (fuel : Nat) (rest : List Text) : Option (St × Out Bool) → Option End
  | none => none
  | some (s, .ok true) => report w (afterOptions w fuel s rest)
  | some (s, .ok false) => match helpRuns w s false with
    | .ok _ => some (.exit 0)
    | .throw e => report w (some (s, .throw e))
    | .ub => some .ub
  | some (s, .throw e) => report w (some (s, .throw e))
  | some (s, .ub) => report w (some (s, .ub))

/-- `ArgParse::Parse` (src/ArgParse.cc 740-743, 947-1053). -/
def parse (w : World) (fuel : Nat) (s : St) (es : List Event) (rest : List Text) : Option End :=
  match addHelpOptions s with
  | (_, .throw e) => some (.escapes e)
  | (_, .ub) => some .ub
  | (s, .ok _) =>
    match forEach (initOne w fuel) s (s.reg.optionMap.map (·.1)) with
    | some (s, .ok _) => afterEvents w fuel rest (events w fuel s es)
    | r => report w r

end Verif.Args
