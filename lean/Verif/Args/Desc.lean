import Verif.Args.Gen
/-!
# Descriptions of parsers: reading one and making one (src/ArgParse.cc 51-113, 159-171, 456-738, 774-788, 823-838,
1172-1220, 1276-1296, 1597-1606, 1721-1743)

Values are trees: lists and maps that a description shares with the parser it came from are copies here.  A handle
(`ArgParseOption`, `OptionGroup`) is the number of the entry or the name of the group.  Members of a group are kept in the order in
which they were added; the code keeps them in the order of their addresses, so what reads them takes that order as a parameter.
-/

namespace Verif.Args
open Verif JsonDrv Schema

/-- "shortOption" (src/ArgParse.cc 1192) -/
def kShortOption : Bytes := [115, 104, 111, 114, 116, 79, 112, 116, 105, 111, 110]
/-- "longOption" (src/ArgParse.cc 1194) -/
def kLongOption : Bytes := [108, 111, 110, 103, 79, 112, 116, 105, 111, 110]
/-- "action" (src/ArgParse.cc 1196) -/
def kAction : Bytes := [97, 99, 116, 105, 111, 110]
/-- "keypath" (src/ArgParse.cc 1216) -/
def kKeypath : Bytes := [107, 101, 121, 112, 97, 116, 104]
/-- "advanced" (src/ArgParse.cc 1603) -/
def kAdvanced : Bytes := [97, 100, 118, 97, 110, 99, 101, 100]
/-- "options" (src/ArgParse.cc 1183) -/
def kOptions : Bytes := [111, 112, 116, 105, 111, 110, 115]
/-- "groups" (src/ArgParse.cc 1200) -/
def kGroups : Bytes := [103, 114, 111, 117, 112, 115]
/-- "arguments" (src/ArgParse.cc 1210) -/
def kArguments : Bytes := [97, 114, 103, 117, 109, 101, 110, 116, 115]
/-- "epilog" (src/ArgParse.cc 1284) -/
def kEpilog : Bytes := [101, 112, 105, 108, 111, 103]
/-- "members" (src/ArgParse.cc 781) -/
def kMembers : Bytes := [109, 101, 109, 98, 101, 114, 115]
/-- "mutually exclusive" (src/ArgParse.cc 778) -/
def kExclusive : Bytes := [109, 117, 116, 117, 97, 108, 108, 121, 32, 101, 120, 99, 108, 117, 115, 105, 118, 101]
/-- "store" -/
def wStore : Bytes := [115, 116, 111, 114, 101]
/-- "store_const" -/
def wStoreConst : Bytes := [115, 116, 111, 114, 101, 95, 99, 111, 110, 115, 116]
/-- "store_true" -/
def wStoreTrue : Bytes := [115, 116, 111, 114, 101, 95, 116, 114, 117, 101]
/-- "store_false" -/
def wStoreFalse : Bytes := [115, 116, 111, 114, 101, 95, 102, 97, 108, 115, 101]
/-- "append" -/
def wAppend : Bytes := [97, 112, 112, 101, 110, 100]
/-- "count" -/
def wCount : Bytes := [99, 111, 117, 110, 116]
/-- "help" -/
def wHelp : Bytes := [104, 101, 108, 112]
/-- "adv_help" -/
def wAdvHelp : Bytes := [97, 100, 118, 95, 104, 101, 108, 112]
/-- "config" -/
def wConfig : Bytes := [99, 111, 110, 102, 105, 103]
/-- "config_json" -/
def wConfigJson : Bytes := [99, 111, 110, 102, 105, 103, 95, 106, 115, 111, 110]
/-- "config_yaml" -/
def wConfigYaml : Bytes := [99, 111, 110, 102, 105, 103, 95, 121, 97, 109, 108]
/-- "config_plist" -/
def wConfigPlist : Bytes := [99, 111, 110, 102, 105, 103, 95, 112, 108, 105, 115, 116]
/-- "config_print" -/
def wConfigPrint : Bytes := [99, 111, 110, 102, 105, 103, 95, 112, 114, 105, 110, 116]

/-! ## Words for actions and types -/

/-- `ArgParseActionFromStr` (src/ArgParse.cc 50-80). -/
def actionOf (s : Bytes) : Action :=
  if s = wStore then .store
  else if s = wStoreConst then .storeConst
  else if s = wStoreTrue then .storeTrue
  else if s = wStoreFalse then .storeFalse
  else if s = wAppend then .append
  else if s = wCount then .count
  else if s = wHelp then .help
  else if s = wAdvHelp then .advHelp
  else if s = wConfig then .config
  else if s = wConfigJson then .configJson
  else if s = wConfigYaml then .configYaml
  else if s = wConfigPlist then .configPlist
  else if s = wConfigPrint then .printConfig
  else .unknown

/-- `ArgParseActionToStr` (src/ArgParse.cc 82-113). -/
def actionWord : Action → Out Bytes
  | .store => .ok wStore
  | .storeConst => .ok wStoreConst
  | .storeTrue => .ok wStoreTrue
  | .storeFalse => .ok wStoreFalse
  | .append => .ok wAppend
  | .count => .ok wCount
  | .help => .ok wHelp
  | .advHelp => .ok wAdvHelp
  | .config => .ok wConfig
  | .configJson => .ok wConfigJson
  | .configYaml => .ok wConfigYaml
  | .configPlist => .ok wConfigPlist
  | .printConfig => .ok wConfigPrint
  | .unknown => .throw .runtime

/-- `ParseType` of a word (src/ArgParse.cc 159-171). -/
def typeOfWord (s : Bytes) : Out Ty :=
  if s = wString then .ok .str
  else if s = wNumber then .ok .flt
  else if s = wInteger then .ok .int
  else if s = wBoolean then .ok .bool
  else if s = wNull then .ok .null
  else .throw .runtime

/-- `ParseType` (src/ArgParse.cc 159-171). -/
def parseType : Val → Out Ty
  | .str s => typeOfWord s
  | _ => .ok .null

/-! ## Parsers -/

/-- A step: what it leaves and how it ended. -/
abbrev Effect := St × Out Unit

/-- One statement after the other. -/
def next (r : Effect) (f : St → Effect) : Effect :=
  match r with
  | (s, .ok _) => f s
  | (s, .throw e) => (s, .throw e)
  | (s, .ub) => (s, .ub)

/-- A statement that needs a value first. -/
def withVal {α : Type} (s : St) (r : Out α) (f : α → Effect) : Effect :=
  match r with
  | .ok a => f a
  | .throw e => (s, .throw e)
  | .ub => (s, .ub)

/-- A loop. -/
def each {α : Type} (f : St → α → Effect) (s : St) : List α → Effect
  | [] => (s, .ok ())
  | x :: xs => next (f s x) (fun s => each f s xs)

/-- Changing an entry. -/
def setCfg (s : St) (id : Int32) (f : Config → Config) : St :=
  { s with reg := { s.reg with optionMap := update s.reg.optionMap id f } }

/-- A call on the registrations. -/
def onReg {α : Type} (s : St) (r : Reg × Out α) (f : St → α → Effect) : Effect :=
  match r with
  | (t, .ok a) => f { s with reg := t } a
  | (t, .throw e) => ({ s with reg := t }, .throw e)
  | (t, .ub) => ({ s with reg := t }, .ub)

/-! ## Entries -/

/-- `opt.Set(k, v)`. -/
def setOpt (c : Config) (k : Bytes) (v : Val) : Config :=
  { c with opt := match c.opt with
    | .map m => .map (AMap.set m k v)
    | v => v }

/-- `for (k, v) in other: this[k] = v` (src/Variant.cc 2143-2147). -/
def mergeKeys (m : List (Bytes × Val)) (o : List (Bytes × Val)) : List (Bytes × Val) := o.foldl (fun m e => AMap.set m e.1 e.2) m

/-- `opt.Merge(o)`. -/
def mergeOpt (c : Config) (o : List (Bytes × Val)) : Config :=
  { c with opt := match c.opt with
    | .map m => .map (mergeKeys m o)
    | v => v }

/-- `o.GetInto(b, k, def)` of a boolean (include/Variant/Variant.h 557-561). -/
def boolOr (o : Val) (k : Bytes) (def_ : Bool) : Out Bool :=
  match getKey? o k with
  | none => .ok def_
  | some v => asBool v

/-- The type in a description, if any (src/ArgParse.cc 1598-1600). -/
def typeIn (o : Val) (t : Ty) : Out Ty :=
  match getKey? o kType with
  | none => .ok t
  | some v => parseType v

/-- `advanced` and `have_advanced` (src/ArgParse.cc 1602-1603). -/
def setAdvanced (s : St) (id : Int32) (b : Bool) : St :=
  { setCfg s id (fun c => { c with advanced := b }) with haveAdvanced := s.haveAdvanced || b }

/-- `opt.Merge(o)`: `o` is by value and not constant, so a null turns into an empty map. -/
def initMerge (s : St) (id : Int32) : Val → Effect
  | .map m => (setCfg s id (fun c => mergeOpt c m), .ok ())
  | .null => (s, .ok ())
  | _ => (s, .throw .unableToConvert)

/-- `ArgParseOptImpl::Init` (src/ArgParse.cc 1597-1606). -/
def initOpt (s : St) (id : Int32) (o : Val) : Effect :=
  match s.entry id with
  | none => (s, .ub)
  | some e =>
    withVal s (typeIn o e.cfg.ty) fun t =>
    let s := setCfg s id (fun c => { c with ty := t })
    withVal s (boolOr o kRequired e.cfg.required) fun b =>
    let s := setCfg s id (fun c => { c with required := b })
    withVal s (boolOr o kAdvanced false) fun b =>
    initMerge (setAdvanced s id b) id o

/-- The first character of a text; that of the empty text is NUL (src/ArgParse.cc 1192).  `char` is signed. -/
def firstChar (t : Bytes) : Int32 := (t.headD 0).toInt8.toInt32

/-- The short option in a description (src/ArgParse.cc 1190-1193). -/
def shortIn (w : World) (o : Val) : Out Int32 :=
  match getKey? o kShortOption with
  | none => .ok 0
  | some v => firstChar <$> Build.asString w.fo.fltText v

/-- An option of a description (src/ArgParse.cc 1187-1198). -/
def mergeOption (w : World) (s : St) (e : Bytes × Val) : Effect :=
  withVal s (shortIn w e.2) fun short =>
  withVal s (textOr w e.2 kLongOption []) fun long =>
  withVal s (textOr w e.2 kDescription []) fun help =>
  withVal s (textOr w e.2 kAction wStore) fun action =>
  onReg s (addOption s.reg e.1 short long help (actionOf action)) fun s id => initOpt s id e.2

/-- An argument of a description (src/ArgParse.cc 1213-1221); one without key path is skipped. -/
def mergeArgument (w : World) (s : St) (o : Val) : Effect :=
  match getKey? o kKeypath with
  | none => (s, .ok ())
  | some k =>
    withVal s (Build.asString w.fo.fltText k) fun keypath =>
    withVal s (textOr w o kDescription []) fun help =>
    withVal s (textOr w o kAction wStore) fun action =>
    onReg s (addArgument s.reg keypath help (actionOf action)) fun s id => initOpt s id o

/-! ## Groups -/

/-- `GetGroup` (src/ArgParse.cc 367-369): a new group if there is none of this name. -/
def getGroup (s : St) (name : Bytes) : St :=
  { s with groups := insert keyLt s.groups name { members := [], required := false, exclusive := false } }

/-- Changing a group. -/
def setGroup (s : St) (name : Bytes) (f : Group → Group) : St :=
  { s with groups := s.groups.map fun (k, g) => (k, if k = name then f g else g) }

/-- `At(path)` (src/ArgParse.cc 333-340): the number of the entry. -/
def entryAt (s : St) (path : VPath) : Out Int32 :=
  match find s.reg.paths (PathM.pathString path) with
  | some id => .ok id
  | none => .throw .runtime

/-- `At(keypath)` (src/ArgParse.cc 327-331). -/
def entryNamed (s : St) (keypath : Bytes) : Out Int32 :=
  match PathM.parsePath keypath with
  | .ok p => entryAt s p
  | .throw e => .throw e
  | .ub => .ub

/-- `std::set::insert`, in the order of insertion. -/
def addOnce {α : Type} [DecidableEq α] (xs : List α) (x : α) : List α := if x ∈ xs then xs else xs ++ [x]

/-- `ArgParseGroupImpl::Add` (src/ArgParse.cc 769-772). -/
def addMember (s : St) (name : Bytes) (id : Int32) : St :=
  setCfg (setGroup s name fun g => { g with members := addOnce g.members id }) id fun c => { c with groups := addOnce c.groups name }

/-- One member of a description (src/ArgParse.cc 782-786). -/
def mergeMember (w : World) (name : Bytes) (s : St) (v : Val) : Effect :=
  withVal s (Build.asString w.fo.fltText v) fun keypath =>
  withVal s (entryNamed s keypath) fun id => (addMember s name id, .ok ())

/-- The members in a description (src/ArgParse.cc 781). -/
def membersIn (o : Val) : List Val :=
  match getKey? o kMembers with
  | some (.list xs) => xs
  | _ => []

/-- `ArgParseGroupImpl::Init` (src/ArgParse.cc 774-788). -/
def initGroup (w : World) (s : St) (name : Bytes) (o : Val) : Effect :=
  match find s.groups name with
  | none => (s, .ub)
  | some g =>
    withVal s (textOr w o kTitle g.title) fun t =>
    let s := setGroup s name (fun g => { g with title := t })
    withVal s (textOr w o kDescription g.description) fun t =>
    let s := setGroup s name (fun g => { g with description := t })
    withVal s (boolOr o kRequired g.required) fun b =>
    let s := setGroup s name (fun g => { g with required := b })
    withVal s (boolOr o kExclusive g.exclusive) fun b =>
    let s := setGroup s name (fun g => { g with exclusive := b })
    withVal s (boolOr o kAdvanced false) fun b =>
    let s := setGroup { s with haveAdvanced := s.haveAdvanced || b } name (fun g => { g with advanced := b })
    each (mergeMember w name) s (membersIn o)

/-- A group of a description (src/ArgParse.cc 1202-1208). -/
def mergeGroup (w : World) (s : St) (e : Bytes × Val) : Effect := initGroup w (getGroup s e.1) e.1 e.2

/-- The map under a key, if it is one (src/ArgParse.cc 1183, 1200). -/
def mapIn (d : Val) (k : Bytes) : List (Bytes × Val) :=
  match getKey? d k with
  | some (.map m) => m
  | _ => []

/-- The list under a key, if it is one (src/ArgParse.cc 1210). -/
def listIn (d : Val) (k : Bytes) : List Val :=
  match getKey? d k with
  | some (.list xs) => xs
  | _ => []

/-- `MergeDescription` (src/ArgParse.cc 1181-1223): options, groups, arguments, in this order. -/
def mergeDescription (w : World) (s : St) (d : Val) : Effect :=
  next (each (mergeOption w) s (mapIn d kOptions)) fun s =>
  next (each (mergeGroup w) s (mapIn d kGroups)) fun s =>
  each (mergeArgument w) s (listIn d kArguments)

/-! ## Making a description -/

/-- The type in a description (src/ArgParse.cc 1724-1728). -/
def typeVal (t : Ty) : Val := if t = .null then .null else .str (typeWord t)

/-- A key that is there only if the text is not empty. -/
def setText (m : List (Bytes × Val)) (k : Bytes) (t : Bytes) : List (Bytes × Val) :=
  if t ≠ [] then AMap.set m k (.str t) else AMap.erase m k

/-- The short option in a description (src/ArgParse.cc 1729-1733). -/
def setShort (m : List (Bytes × Val)) (short : Int32) : List (Bytes × Val) :=
  if short > 0 then AMap.set m kShortOption (.str [(toChar short).toUInt8]) else AMap.erase m kShortOption

/-- The settings of an entry. -/
def settings (c : Config) : List (Bytes × Val) :=
  match c.opt with
  | .map m => m
  | _ => []

/-- `ArgParseOptImpl::GetDescription` (src/ArgParse.cc 1721-1743). -/
def describeOpt (o : Opt) : Out Val :=
  let m := AMap.set (mergeKeys [] (settings o.cfg)) kType (typeVal o.cfg.ty)
  let m := setText (setShort m o.short) kLongOption o.long
  match actionWord o.cfg.action with
  | .ok a => .ok (.map (AMap.set (AMap.set (AMap.set (AMap.set m kAction (.str a)) kRequired (.bool o.cfg.required))
      kKeypath (.str (PathM.pathString o.path))) kAdvanced (.bool o.cfg.advanced)))
  | .throw e => .throw e
  | .ub => .ub

/-- Key paths of entries. -/
def keypaths (s : St) : List Int32 → Out (List Val)
  | [] => .ok []
  | id :: ids => match s.entry id with
    | none => .ub
    | some o => (Val.str (PathM.pathString o.path) :: ·) <$> keypaths s ids

/-- A text if it is not empty. -/
def ifText (k t : Bytes) : List (Bytes × Val) := if t ≠ [] then [(k, .str t)] else []

/-- `ArgParseGroupImpl::GetDescription` (src/ArgParse.cc 823-838); `ord` is the order of the members' addresses. -/
def describeGroup (s : St) (ord : List Int32 → List Int32) (g : Group) : Out Val := do
  let mem ← keypaths s (ord g.members)
  let m := mergeKeys [] (ifText kTitle g.title ++ ifText kDescription g.description)
  return .map (AMap.set (AMap.set (AMap.set (AMap.set m kRequired (.bool g.required)) kExclusive (.bool g.exclusive))
    kAdvanced (.bool g.advanced)) kMembers (.list mem))

/-- The options by key path (src/ArgParse.cc 1285-1288). -/
def describeOptions (s : St) : List Int32 → List (Bytes × Val) → Out (List (Bytes × Val))
  | [], m => .ok m
  | id :: ids, m => match s.entry id with
    | none => .ub
    | some o => match describeOpt o with
      | .ok d => describeOptions s ids (AMap.set m (PathM.pathString o.path) d)
      | .throw e => .throw e
      | .ub => .ub

/-- The arguments (src/ArgParse.cc 1289-1292). -/
def describeArguments (s : St) : List Int32 → Out (List Val)
  | [] => .ok []
  | id :: ids => match s.entry id with
    | none => .ub
    | some o => do
      let d ← describeOpt o
      let ds ← describeArguments s ids
      return d :: ds

/-- The groups (src/ArgParse.cc 1293-1295). -/
def describeGroups (s : St) (ord : List Int32 → List Int32) : List (Bytes × Group) → Out (List (Bytes × Val))
  | [] => .ok []
  | (n, g) :: gs => do
    let d ← describeGroup s ord g
    let ds ← describeGroups s ord gs
    return (n, d) :: ds

/-- A key that is there only if there is something under it: `desc[k]` is written in a loop. -/
def ifSome {α : Type} (k : Bytes) (xs : List α) (v : Val) : List (Bytes × Val) := if xs.isEmpty then [] else [(k, v)]

/-- `ArgParseImpl::GetDescription` (src/ArgParse.cc 1280-1296). -/
def getDescription (ord : List Int32 → List Int32) (P : Parser) : Out Val := do
  let os ← describeOptions P.st P.st.reg.options []
  let as_ ← describeArguments P.st P.st.reg.arguments
  let gs ← describeGroups P.st ord P.st.groups
  return .map (mergeKeys [(kDescription, .str P.description), (kEpilog, .str P.epilog), (kTitle, .str P.title)]
    (ifSome kOptions P.st.reg.options (.map os) ++ ifSome kArguments P.st.reg.arguments (.list as_) ++ ifSome kGroups P.st.groups (.map gs)))

/-! ## The calls of a program -/

/-- The setters of an option (include/Variant/ArgParse.h 66-158).  `Type` with an `ArgParseType` is the case of the types of
that enumeration. -/
inductive Setter where
  | title (t : Bytes) | action (a : Action) | actionName (a : Bytes) | type (t : Ty) | typeName (t : Bytes)
  | const (v : Val) | default (v : Val) | env (t : Bytes) | minimum (v : Val) | maximum (v : Val)
  | addChoice (v : Val) | setChoices (vs : List Val) | required (on : Bool) | help (t : Bytes) | pattern (t : Bytes)
  | maxLength (n : UInt32) | minLength (n : UInt32) | minArgs (n : UInt32) | maxArgs (n : UInt32) | numArgs (n : UInt32)
  | advanced (on : Bool)

/-- The type a setting implies (src/ArgParse.cc 523, 532, 570, 576, 582). -/
def defaultType (c : Config) (t : Ty) : Config := { c with ty := if c.ty = .null then t else c.ty }

/-- `Minimum` and `Maximum` (src/ArgParse.cc 519-537). -/
def setLimit (c : Config) (k : Bytes) (v : Val) : Config × Out Unit :=
  if isNumber v then (setOpt (defaultType c .flt) k v, .ok ()) else (c, .throw .runtime)

/-- `AddChoice` (src/ArgParse.cc 539-546); `==` is `Compare() == 0`.  A null stays what it is: the list is made in a copy. -/
def withChoice (p : Nat) (c : Config) (v : Val) : Config × Out Unit :=
  match optGet c kEnum with
  | none => (setOpt c kEnum (.list [v]), .ok ())
  | some (.list xs) => (if xs.any (fun x => veq p x v) then c else setOpt c kEnum (.list (xs ++ [v])), .ok ())
  | some .null => (c, .ok ())
  | some _ => (c, .throw .unableToConvert)

/-- `MinArgs` (src/ArgParse.cc 584-590). -/
def setMinArgs (c : Config) (n : UInt32) : Config :=
  { setOpt c kMinArgs (.uint n.toUInt64) with required := c.required || decide (n > 0) }

/-- The setters (src/ArgParse.cc 456-613).  `Required(false)` makes the option required (557). -/
def Setter.run (p : Nat) (c : Config) : Setter → Config × Out Unit
  | .title t => (setOpt c kTitle (.str t), .ok ())
  | .action a => if a = .unknown then (c, .throw .runtime) else ({ c with action := a }, .ok ())
  | .actionName a => if actionOf a = .unknown then (c, .throw .runtime) else ({ c with action := actionOf a }, .ok ())
  | .type t => if t = .map ∨ t = .list then (c, .throw .runtime) else ({ c with ty := t }, .ok ())
  | .typeName t => match typeOfWord t with
    | .ok t => ({ c with ty := t }, .ok ())
    | .throw e => (c, .throw e)
    | .ub => (c, .ub)
  | .const v => (setOpt c kConst v, .ok ())
  | .default v => (setOpt c kDefault v, .ok ())
  | .env t => (setOpt c kEnv (.str t), .ok ())
  | .minimum v => setLimit c kMinimum v
  | .maximum v => setLimit c kMaximum v
  | .addChoice v => withChoice p c v
  | .setChoices vs => (setOpt c kEnum (.list vs), .ok ())
  | .required _ => ({ c with required := true }, .ok ())
  | .help t => (setOpt c kDescription (.str t), .ok ())
  | .pattern t => (setOpt (defaultType c .str) kPattern (.str t), .ok ())
  | .maxLength n => (setOpt (defaultType c .str) kMaxLength (.uint n.toUInt64), .ok ())
  | .minLength n => (setOpt (defaultType c .str) kMinLength (.uint n.toUInt64), .ok ())
  | .minArgs n => (setMinArgs c n, .ok ())
  | .maxArgs n => (setOpt c kMaxArgs (.uint n.toUInt64), .ok ())
  | .numArgs n => (setOpt (setMinArgs c n) kMaxArgs (.uint n.toUInt64), .ok ())
  | .advanced b => ({ c with advanced := b }, .ok ())

/-- The calls a program makes to set a parser up.  `AddFlag` is `addOption` with two setters, `AddConfigDefaults` two times
`addOption`; `AddGroup` is `group`, `groupTitle` and `groupDescription`. -/
inductive PCall where
  | conflictResolution (on : Bool)
  | addHelp
  | addOption (keypath : Bytes) (short : Int32) (long help : Bytes) (action : Action)
  | addArgument (keypath help : Bytes)
  | set (id : Int32) (f : Setter)
  | joinGroup (id : Int32) (name : Bytes)
  | group (name : Bytes)
  | groupTitle (name t : Bytes)
  | groupDescription (name t : Bytes)
  | groupExclusive (name : Bytes) (on : Bool)
  | groupRequired (name : Bytes) (on : Bool)
  | groupAdvanced (name : Bytes) (on : Bool)
  | groupAdd (name keypath : Bytes)
  | setTitle (t : Bytes)
  | setDescription (t : Bytes)
  | setEpilog (t : Bytes)
  | merge (d : Val)

/-- A setter called through a handle (src/ArgParse.cc 456-613); there is no handle for an unknown number. -/
def setEntry (p : Nat) (s : St) (id : Int32) (f : Setter) : Effect :=
  match s.entry id with
  | none => (s, .ok ())
  | some o =>
    let r := f.run p o.cfg
    let s := setCfg s id fun _ => r.1
    (match f with
     | .advanced _ => { s with haveAdvanced := true }
     | _ => s, r.2)

/-- One call (src/ArgParse.cc 613-738). -/
def PCall.step (w : World) (s : St) : PCall → Effect
  | .conflictResolution on => ({ s with reg := { s.reg with resolve := on } }, .ok ())
  | .addHelp => ({ s with addHelp := true }, .ok ())
  | .addOption k sh l h a => onReg s (Args.addOption s.reg k sh l h a) fun s _ => (s, .ok ())
  | .addArgument k h => onReg s (Args.addArgument s.reg k h .store) fun s _ => (s, .ok ())
  | .set id f => setEntry w.p s id f
  | .joinGroup id n => match s.entry id with
    | none => (s, .ok ())
    | some _ => (addMember (getGroup s n) n id, .ok ())
  | .group n => (getGroup s n, .ok ())
  | .groupTitle n t => (setGroup s n fun g => { g with title := t }, .ok ())
  | .groupDescription n t => (setGroup s n fun g => { g with description := t }, .ok ())
  | .groupExclusive n b => (setGroup s n fun g => { g with exclusive := b }, .ok ())
  | .groupRequired n b => (setGroup s n fun g => { g with required := b }, .ok ())
  | .groupAdvanced n b => (setGroup { s with haveAdvanced := true } n fun g => { g with advanced := b }, .ok ())
  | .groupAdd n k => match find s.groups n with
    | none => (s, .ok ())
    | some _ => withVal s (entryNamed s k) fun id => (addMember s n id, .ok ())
  | .merge d => mergeDescription w s d
  | _ => (s, .ok ())

/-- One call on a parser. -/
def PCall.run (w : World) (P : Parser) (c : PCall) : Parser × Out Unit :=
  let r := c.step w P.st
  (match c with
   | .setTitle t => { P with title := t }
   | .setDescription t => { P with description := t }
   | .setEpilog t => { P with epilog := t }
   | _ => { P with st := r.1 }, r.2)

/-- A new `ArgParse` (src/ArgParse.cc 293-299, 655-661); its title is the name of the program. -/
def newParser (title : Bytes) (addHelp : Bool) : Parser := ⟨⟨.init, [], addHelp, false, false, false, false⟩, title, [], []⟩

/-- Any sequence of calls; exceptions are caught and the program goes on, undefined behaviour ends it (`none`). -/
def build (w : World) (P : Parser) : List PCall → Option Parser
  | [] => some P
  | c :: cs => match (c.run w P).2 with
    | .ub => none
    | _ => build w (c.run w P).1 cs

end Verif.Args
