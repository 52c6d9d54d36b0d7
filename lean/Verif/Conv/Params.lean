import Verif.Conv.Model
import Verif.Yaml.Model
/-!
# Parameters of the emitters

src/JSONEmitter.cc 41-53, 167-192; src/XMLPLISTEmitter.cc 43-63, 187-216; src/BundleHdrEmitter.cc 16-21,
src/BundleHdrEmitter.h 58-65; src/YAMLEmitter.cc 38-169, 379-393; src/Emitter.cc 38-44.
-/

namespace Verif.Conv
open Verif

/-- "pretty", "strict", "indent", "precision" -/
def kPretty : Bytes := [112, 114, 101, 116, 116, 121]
def kStrict : Bytes := [115, 116, 114, 105, 99, 116]
def kIndent : Bytes := [105, 110, 100, 101, 110, 116]
def kPrecision : Bytes := [112, 114, 101, 99, 105, 115, 105, 111, 110]
/-- "scalar_style", "map_style", "list_style" -/
def kScalarStyle : Bytes := [115, 99, 97, 108, 97, 114, 95, 115, 116, 121, 108, 101]
def kMapStyle : Bytes := [109, 97, 112, 95, 115, 116, 121, 108, 101]
def kListStyle : Bytes := [108, 105, 115, 116, 95, 115, 116, 121, 108, 101]
/-- "implicit_document_begin", "implicit_document_end", "width" -/
def kBegin : Bytes := [105, 109, 112, 108, 105, 99, 105, 116, 95, 100, 111, 99, 117, 109, 101, 110, 116, 95, 98, 101, 103, 105, 110]
def kEnd : Bytes := [105, 109, 112, 108, 105, 99, 105, 116, 95, 100, 111, 99, 117, 109, 101, 110, 116, 95, 101, 110, 100]
def kWidth : Bytes := [119, 105, 100, 116, 104]

/-- `(unsigned)v.AsUnsigned()`. -/
def asU32 (v : Val) : Out UInt32 := UInt64.toUInt32 <$> asUnsigned v

/-- `(int)v.AsInt()`. -/
def asI32 (v : Val) : Out Int32 := Int64.toInt32 <$> asInt v

/-- A `Variant` made of an `unsigned`, of an `int`. -/
def ofU32 (n : UInt32) : Val := .uint n.toUInt64
def ofI32 (n : Int32) : Val := .int n.toInt64

/-- What a call that may throw half way leaves behind. -/
abbrev Step (C : Type) := C × Out Unit

/-- `EmitterImpl::SetParams` (src/Emitter.cc 38-44): the entries of the map in order; an exception leaves the ones before
it set. -/
def setAll (set : C → Bytes → Val → Out C) (c : C) : List (Bytes × Val) → Step C
  | [] => (c, .ok ())
  | (k, v) :: m => match set c k v with
    | .ok c' => setAll set c' m
    | .throw e => (c, .throw e)
    | .ub => (c, .ub)

/-- Nothing is done for a value that is no map (src/Emitter.cc 39). -/
def setParams (set : C → Bytes → Val → Out C) (c : C) : Val → Step C
  | .map m => setAll set c m
  | _ => (c, .ok ())

/-! ## JSON -/

/-- src/JSONEmitter.h 94-97. -/
structure JCfg where
  pretty : Bool
  strict : Bool
  indent : UInt32
  precision : UInt32
  deriving DecidableEq, Repr

/-- The constructor (src/JSONEmitter.cc 41-53). -/
def JCfg.new (params : Val) : Out JCfg := do
  let pretty ← getInto Schema.asBool params kPretty false
  let strict ← getInto Schema.asBool params kStrict false
  let indent ← getInto asU32 params kIndent 4
  let precision ← getInto asU32 params kPrecision 17
  .ok ⟨pretty, strict, indent, precision⟩

/-- `GetParam` (src/JSONEmitter.cc 167-172). -/
def JCfg.get (c : JCfg) (k : Bytes) : Val :=
  if k = kPretty then .bool c.pretty
  else if k = kIndent then ofU32 c.indent
  else if k = kPrecision then ofU32 c.precision
  else .null

/-- `GetParams` (src/JSONEmitter.cc 174-180). -/
def JCfg.all (c : JCfg) : Val :=
  .map (AMap.set (AMap.set (AMap.set [] kPretty (.bool c.pretty)) kIndent (ofU32 c.indent)) kPrecision (ofU32 c.precision))

/-- `SetParam` (src/JSONEmitter.cc 182-192). -/
def JCfg.set (c : JCfg) (k : Bytes) (v : Val) : Out JCfg :=
  if k = kPretty then (fun b => { c with pretty := b }) <$> Schema.asBool v
  else if k = kIndent then (fun n => { c with indent := n }) <$> asU32 v
  else if k = kPrecision then (fun n => { c with precision := n }) <$> asU32 v
  else .ok c

/-! ## XML property lists -/

/-- src/XMLPLISTEmitter.h 125-127; `writer` is the indentation last given to libxml2. -/
structure XCfg where
  pretty : Bool
  indent : UInt32
  precision : UInt32
  writer : UInt32
  deriving DecidableEq, Repr

/-- `UpdateParams` (src/XMLPLISTEmitter.cc 210-216). -/
def XCfg.update (c : XCfg) : XCfg := { c with writer := if c.pretty then c.indent else 0 }

/-- The constructor (src/XMLPLISTEmitter.cc 43-63). -/
def XCfg.new (params : Val) : Out XCfg := do
  let pretty ← getInto Schema.asBool params kPretty false
  let indent ← getInto asU32 params kIndent 4
  let precision ← getInto asU32 params kPrecision 17
  .ok (XCfg.update ⟨pretty, indent, precision, 0⟩)

/-- `GetParam` (src/XMLPLISTEmitter.cc 187-192). -/
def XCfg.get (c : XCfg) (k : Bytes) : Val :=
  if k = kPretty then .bool c.pretty
  else if k = kIndent then ofU32 c.indent
  else if k = kPrecision then ofU32 c.precision
  else .null

/-- `GetParams` (src/XMLPLISTEmitter.cc 194-200). -/
def XCfg.all (c : XCfg) : Val :=
  .map (AMap.set (AMap.set (AMap.set [] kPretty (.bool c.pretty)) kIndent (ofU32 c.indent)) kPrecision (ofU32 c.precision))

/-- `SetParam` (src/XMLPLISTEmitter.cc 202-207). -/
def XCfg.set (c : XCfg) (k : Bytes) (v : Val) : Out XCfg :=
  XCfg.update <$>
    (if k = kPretty then (fun b => { c with pretty := b }) <$> Schema.asBool v
     else if k = kIndent then (fun n => { c with indent := n }) <$> asU32 v
     else if k = kPrecision then (fun n => { c with precision := n }) <$> asU32 v
     else .ok c)

/-! ## Bundle headers -/

/-- src/BundleHdrEmitter.h 106. -/
structure BCfg where
  precision : UInt32
  deriving DecidableEq, Repr

/-- The constructor does not look at its parameters (src/BundleHdrEmitter.cc 16-21). -/
def BCfg.new (_params : Val) : Out BCfg := .ok ⟨17⟩

/-- `GetParam` (src/BundleHdrEmitter.h 58-61). -/
def BCfg.get (c : BCfg) (k : Bytes) : Val := if k = kPrecision then ofU32 c.precision else .null

/-- `GetParams` (src/BundleHdrEmitter.h 62). -/
def BCfg.all (c : BCfg) : Val := .map [(kPrecision, ofU32 c.precision)]

/-- `SetParam` (src/BundleHdrEmitter.h 63-65). -/
def BCfg.set (c : BCfg) (k : Bytes) (v : Val) : Out BCfg :=
  if k = kPrecision then (fun n => ⟨n⟩) <$> asU32 v else .ok c

/-! ## YAML -/

/-- `ScalarStyle` (src/YAMLEmitter.h 64-71). -/
inductive SStyle where
  | any | plain | single | double | literal | folded
  deriving DecidableEq, Repr

/-- `scalar_style_str` (src/YAMLEmitter.cc 41-42). -/
def scalarStyles : List (Bytes × SStyle) :=
  [([97, 110, 121], .any), ([112, 108, 97, 105, 110], .plain), ([115, 105, 110, 103, 108, 101, 32, 113, 117, 111, 116, 101, 100], .single),
   ([100, 111, 117, 98, 108, 101, 32, 113, 117, 111, 116, 101, 100], .double), ([108, 105, 116, 101, 114, 97, 108], .literal),
   ([102, 111, 108, 100, 101, 100], .folded)]

/-- `style_str` (src/YAMLEmitter.cc 43). -/
def styles : List (Bytes × Yaml.CStyle) := [([97, 110, 121], .any), ([98, 108, 111, 99, 107], .block), ([102, 108, 111, 119], .flow)]

/-- `Config` (src/YAMLEmitter.h 88-95). -/
structure YCfg where
  scalar : SStyle
  mapStyle : Yaml.CStyle
  listStyle : Yaml.CStyle
  implicitBegin : Bool
  implicitEnd : Bool
  indent : Int32
  width : Int32
  precision : UInt32
  deriving DecidableEq, Repr

/-- The initial values (src/YAMLEmitter.cc 46-53). -/
def YCfg.init : YCfg := ⟨.any, .any, .any, false, false, -1, -1, 17⟩

/-- `param_keys` (src/YAMLEmitter.cc 38-40). -/
def yamlKeys : List Bytes := [kScalarStyle, kMapStyle, kListStyle, kBegin, kEnd, kIndent, kWidth, kPrecision]

/-- The loops over the names of styles (src/YAMLEmitter.cc 83-89, 94-100, 106-112): an unknown name leaves the style. -/
def pick (table : List (Bytes × α)) (name : Bytes) (old : α) : α :=
  match table.find? (fun e => e.1 == name) with
  | some e => e.2
  | none => old

/-- `SetParam` (src/YAMLEmitter.cc 69-76, 78-133); `ft` is the text of a float. -/
def YCfg.set (ft : UInt64 → Bytes) (c : YCfg) (k : Bytes) (v : Val) : Out YCfg :=
  if k = kScalarStyle then (fun s => { c with scalar := pick scalarStyles s c.scalar }) <$> Build.asString ft v
  else if k = kMapStyle then (fun s => { c with mapStyle := pick styles s c.mapStyle }) <$> Build.asString ft v
  else if k = kListStyle then (fun s => { c with listStyle := pick styles s c.listStyle }) <$> Build.asString ft v
  else if k = kBegin then (fun b => { c with implicitBegin := b }) <$> Schema.asBool v
  else if k = kEnd then (fun b => { c with implicitEnd := b }) <$> Schema.asBool v
  else if k = kIndent then (fun n => { c with indent := n }) <$> asI32 v
  else if k = kWidth then (fun n => { c with width := n }) <$> asI32 v
  else if k = kPrecision then (fun n => { c with precision := n }) <$> asU32 v
  else .ok c

/-- `Config::SetParams` (src/YAMLEmitter.cc 58-67): the known keys in the order of the table. -/
def YCfg.setParams (ft : UInt64 → Bytes) (c : YCfg) : Val → Step YCfg
  | .map m => setAll (YCfg.set ft) c (yamlKeys.filterMap fun k => (AMap.get m k).map (k, ·))
  | _ => (c, .ok ())

/-- The constructor (src/YAMLEmitter.cc 45-56). -/
def YCfg.new (ft : UInt64 → Bytes) (params : Val) : Out YCfg :=
  match YCfg.setParams ft .init params with
  | (c, .ok _) => .ok c
  | (_, .throw e) => .throw e
  | (_, .ub) => .ub

/-- `GetParam` (src/YAMLEmitter.cc 144-169): the styles are looked up by the number of the key, not by the setting. -/
def YCfg.get (c : YCfg) (k : Bytes) : Val :=
  if k = kScalarStyle then .str [97, 110, 121]
  else if k = kMapStyle then .str [98, 108, 111, 99, 107]
  else if k = kListStyle then .str [102, 108, 111, 119]
  else if k = kBegin then .bool c.implicitBegin
  else if k = kEnd then .bool c.implicitEnd
  else if k = kIndent then ofI32 c.indent
  else if k = kWidth then ofI32 c.width
  else if k = kPrecision then ofU32 c.precision
  else .null

/-- `GetParams` (src/YAMLEmitter.cc 135-142). -/
def YCfg.all (c : YCfg) : Val := .map (yamlKeys.foldl (fun m k => AMap.set m k (c.get k)) [])

/-- What is used when values are written (see `Yaml.Conf`). -/
def YCfg.conf (c : YCfg) : Yaml.Conf := ⟨c.mapStyle, c.listStyle, c.implicitBegin, c.implicitEnd⟩

end Verif.Conv
