import Verif.Args.Register
import Verif.Guess.Model
import Verif.Schema.Model
/-!
# What a command line is parsed with (src/ArgParse.cc 262-450)
-/

namespace Verif.Args
open Verif JsonDrv Schema

/-- "const" (src/ArgParse.cc 1332) -/
def kConst : Bytes := [99, 111, 110, 115, 116]
/-- "env" (src/ArgParse.cc 981) -/
def kEnv : Bytes := [101, 110, 118]

/-- A C string (without NUL), and whether `errno` is `ERANGE` at the moment it is converted: the code tests
`errno` without resetting it. -/
structure Text where
  bytes : Bytes
  erange : Bool
  deriving Repr

/-- What is outside `ArgParse`. -/
structure World where
  /-- significand bits of `long double` -/
  p : Nat
  /-- `strtod` and `oss << double` -/
  fo : FloatOps
  /-- how many characters `strtod` reads -/
  strtodEnd : Bytes → Nat
  /-- `regcomp` (none: error) and `regexec` on C strings -/
  regex : Bytes → Option (Bytes → Bool)
  /-- `DeserializeGuessFile` and `DeserializeFile` of a file name -/
  load : Action → Bytes → Out Val
  /-- `getenv` -/
  getenv : Bytes → Option Text
  /-- `setprecision(p) << showpoint << double` -/
  jsonFlt : Nat → UInt64 → Bytes
  /-- `iss >> uintmax_t` of a string -/
  strUInt : Bytes → Out UInt64
  /-- operations on floats -/
  fl : Verif.Op → Val → Val → Val

/-- `ArgParseGroupImpl` (src/ArgParse.cc 262-291); members are the numbers of entries. -/
structure Group where
  members : List Int32
  required : Bool
  exclusive : Bool
  title : Bytes := []
  description : Bytes := []
  advanced : Bool := false
  deriving Repr

/-- `ArgParseImpl` (src/ArgParse.cc 293-450). -/
structure St where
  reg : Reg
  groups : List (Bytes × Group)
  addHelp : Bool
  haveAdvanced : Bool
  printHelp : Bool
  printAdv : Bool
  printConfig : Bool
  deriving Repr

/-- What a step leaves and how it ended; `none`: not finished within the given number of nested configuration
files. -/
abbrev Res := Option (St × Out Unit)

/-- One statement after the other. -/
def andThen (r : Res) (f : St → Res) : Res :=
  match r with
  | none => none
  | some (s, .ok _) => f s
  | some (s, .throw e) => some (s, .throw e)
  | some (s, .ub) => some (s, .ub)

/-- A loop. -/
def forEach {α : Type} (f : St → α → Res) (s : St) : List α → Res
  | [] => some (s, .ok ())
  | x :: xs => andThen (f s x) (fun s => forEach f s xs)

/-- `opt.Contains(k)` and `opt[k]`. -/
def optGet (c : Config) (k : Bytes) : Option Val := getKey? c.opt k

/-- The entry with this number. -/
def St.entry (s : St) (id : Int32) : Option Opt := find s.reg.optionMap id

/-- `result = v`. -/
def setResult (s : St) (id : Int32) (v : Val) : St :=
  { s with reg := { s.reg with optionMap := s.reg.optionMap.map fun (k, o) => (k, if k = id then { o with result := v } else o) } }

/-- `ArgParseActionHasArg` (src/ArgParse.cc 114-135). -/
def hasArg : Action → Bool
  | .store => true
  | .append => true
  | .config => true
  | .configJson => true
  | .configYaml => true
  | .configPlist => true
  | _ => false

/-- `ArgParseActionHasResult` (src/ArgParse.cc 137-158). -/
def hasResult : Action → Bool
  | .store => true
  | .append => true
  | .storeConst => true
  | .storeTrue => true
  | .storeFalse => true
  | .count => true
  | _ => false

/-- `variant_cast<unsigned>` (include/Variant/Variant.h 470; src/Variant.cc 597, 712, 840, 899, 960, 1044). -/
def asU32 (w : World) (v : Val) : Out Nat := do
  let n ← match v with
    | .null => .ok 0
    | .bool b => .ok (if b then 1 else 0)
    | .str s => w.strUInt s
    | v => asUnsignedNum v
  return n.toNat % 2 ^ 32

/-- `opt.GetInto(x, k, 0u)`. -/
def setting (w : World) (c : Config) (k : Bytes) : Out Nat :=
  match optGet c k with
  | none => .ok 0
  | some v => asU32 w v

/-- `o.Get(k, def).AsString()`. -/
def textOr (w : World) (o : Val) (k def_ : Bytes) : Out Bytes :=
  match getKey? o k with
  | none => .ok def_
  | some v => Build.asString w.fo.fltText v

end Verif.Args
