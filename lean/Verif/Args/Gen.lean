import Verif.Args.Parse
/-!
# The schema a parser generates for its results (src/ArgParse.cc 840-886, 1262-1274, 1745-1850)

Where the code writes through references into the schema under construction, the functions here give the schema
after the write.
-/

namespace Verif.Args
open Verif JsonDrv Schema

/-! ## The schema of one value -/

/-- `TypeString` (src/ArgParse.cc 174-192). -/
def typeWord : Ty → Bytes
  | .bool => wBoolean
  | .int => wInteger
  | .uint => wInteger
  | .flt => wNumber
  | .str => wString
  | _ => wNull

/-- `if (opt.Contains(k)) { s[k] = opt[k]; }`. -/
def copyKey (c : Config) (k : Bytes) (m : List (Bytes × Val)) : List (Bytes × Val) :=
  match optGet c k with
  | some x => AMap.set m k x
  | none => m

/-- `if (opt.Contains("enum")) { s["enum"] = opt["enum"].Copy(); }`. -/
def copyChoices (c : Config) (m : List (Bytes × Val)) : List (Bytes × Val) :=
  match optGet c kEnum with
  | some x => AMap.set m kEnum (deepCopy x)
  | none => m

/-- The type and the limits of a word's value (src/ArgParse.cc 1793-1799, 1813-1819). -/
def limitKeys (c : Config) (m : List (Bytes × Val)) : List (Bytes × Val) :=
  let m := if c.ty = .null then m else AMap.set m kType (.str (typeWord c.ty))
  copyChoices c (copyKey c kPattern (copyKey c kMaxLength (copyKey c kMinLength (copyKey c kMaximum (copyKey c kMinimum m)))))

/-- `if (opt.Contains(k) && opt[k] > 0) { s[k'] = opt[k]; }` (src/ArgParse.cc 1826-1827). -/
def countKey (w : World) (c : Config) (k k' : Bytes) (m : List (Bytes × Val)) : List (Bytes × Val) :=
  match optGet c k with
  | some x => if cmp w.p x (.int 0) > 0 then AMap.set m k' x else m
  | none => m

/-- The default of a list: its only element (src/ArgParse.cc 1820-1823). -/
def copyDefault (c : Config) (m : List (Bytes × Val)) : List (Bytes × Val) :=
  match optGet c kDefault with
  | some d => AMap.set m kDefault (.list [d])
  | none => m

/-- `GenerateSchema() const` of an entry (src/ArgParse.cc 1787-1849): the schema its value must satisfy.  A
missing constant throws. -/
def valueSchema (w : World) (c : Config) : Out Val :=
  let m := copyKey c kDescription (copyKey c kTitle [])
  match c.action with
  | .store => .ok (.map (copyKey c kDefault (limitKeys c m)))
  | .storeConst => match getKeyC c.opt kConst with
    | .ok x => .ok (.map (AMap.set m kEnum (.list [x])))
    | .throw e => .throw e
    | .ub => .ub
  | .storeTrue => .ok (.map (copyKey c kDefault (AMap.set m kType (.str wBoolean))))
  | .storeFalse => .ok (.map (copyKey c kDefault (AMap.set m kType (.str wBoolean))))
  | .append =>
    let m := AMap.set (copyDefault c m) kItems (.map (limitKeys c []))
    .ok (.map (countKey w c kMaxArgs kMaxItems (countKey w c kMinArgs kMinItems m)))
  | .count => .ok (.map (AMap.set (AMap.set m kType (.str wInteger)) kMinimum (.int 0)))
  | _ => .ok (.map m)

/-! ## Its place in the schema of the result -/

/-- `schema.Get("type", "") == word`. -/
def typeIs (s : Val) (word : Bytes) : Bool :=
  match getKey? s kType with
  | some (.str t) => t = word
  | _ => false

/-- `if (!schema.Contains(k)) { schema[k] = v; }`. -/
def ensure (m : List (Bytes × Val)) (k : Bytes) (v : Val) : List (Bytes × Val) :=
  match AMap.get m k with
  | some _ => m
  | none => AMap.set m k v

/-- Naming a property as required, once (src/ArgParse.cc 1769-1775). -/
def addRequired (w : World) (key : Bytes) (m : List (Bytes × Val)) : Out (List (Bytes × Val)) :=
  match AMap.get m kRequired with
  | none => .ok (AMap.set m kRequired (.list [.str key]))
  | some (.list ks) => .ok (if ks.any (fun k => veq w.p k (.str key)) then m else AMap.set m kRequired (.list (ks ++ [.str key])))
  | some _ => .throw .unexpectedType

/-- `i->AsString()`. -/
def elemText : PathElem → Bytes
  | .key k => k
  | .index i => natDec i.toNat

/-- `i->AsUnsigned()`. -/
def elemIndex (w : World) : PathElem → Out UInt32
  | .key k => (fun (n : UInt64) => n.toUInt32) <$> w.strUInt k
  | .index i => .ok i

/-- The keywords of a schema under construction, a null being an empty one. -/
def keywords : Val → Out (List (Bytes × Val))
  | .null => .ok []
  | .map m => .ok m
  | _ => .throw .unexpectedType

/-- A required property is named (src/ArgParse.cc 1769-1775). -/
def nameRequired (w : World) (req : Bool) (key : Bytes) (m : List (Bytes × Val)) : Out (List (Bytes × Val)) :=
  if req then addRequired w key m else .ok m

/-- `GenerateObjectSchema` (src/ArgParse.cc 1762-1777); `f` goes on with the schema of the property. -/
def inObject (w : World) (req : Bool) (e : PathElem) (f : Val → Out Val) (s : Val) : Out Val := do
  let m ← keywords s
  let m := ensure (ensure m kType (.str wObject)) kProperties (.map [])
  let m ← nameRequired w req (elemText e) m
  match AMap.get m kProperties with
  | some (.map ps) => do
    let c ← f ((AMap.get ps (elemText e)).getD (.map []))
    return .map (AMap.set m kProperties (.map (AMap.set ps (elemText e) c)))
  | _ => .throw .unexpectedType

/-- `GenerateArraySchema` (src/ArgParse.cc 1779-1785); elements before a new one are null. -/
def inArray (w : World) (e : PathElem) (f : Val → Out Val) (s : Val) : Out Val := do
  let m ← keywords s
  let i ← elemIndex w e
  let m := ensure (ensure m kType (.str wArray)) kItems (.list [])
  match AMap.get m kItems with
  | some (.list xs) => do
    let c ← f (xs[i.toNat]?.getD (.map []))
    match setIndex (.list xs) i c with
    | (xs', none) => return .map (AMap.set m kItems xs')
    | (_, some e) => .throw e
  | _ => .throw .unexpectedType

/-- `GenerateSchema(schema, i, e)` (src/ArgParse.cc 1745-1760). -/
def place (w : World) (req : Bool) (leaf : Out Val) : VPath → Val → Out Val
  | [], _ => leaf
  | e :: p, s =>
    if typeIs s wObject then inObject w req e (place w req leaf p) s
    else if typeIs s wArray then inArray w e (place w req leaf p) s
    else match e with
      | .key _ => inObject w req e (place w req leaf p) s
      | .index _ => inArray w e (place w req leaf p) s

/-- The loops over the options and the arguments (src/ArgParse.cc 1263-1268).  `GetOpt` does not check the
number. -/
def placeAll (w : World) (s : St) : List Int32 → Val → Out Val
  | [], sch => .ok sch
  | id :: ids, sch => match s.entry id with
    | none => .ub
    | some o => match place w o.cfg.required (valueSchema w o.cfg) o.path sch with
      | .ok sch => placeAll w s ids sch
      | .throw e => .throw e
      | .ub => .ub

/-! ## Groups -/

/-- `GroupSchema` (src/ArgParse.cc 867-886): there is a value at the path.  The schema it writes to is new at every
level. -/
def memberSchema : VPath → Val
  | [] => .map []
  | .key k :: p => .map [(kProperties, .map [(k, memberSchema p)]), (kRequired, .list [.str k])]
  | .index i :: p => .map [(kItems, .list (List.replicate i.toNat (.map []) ++ [memberSchema p]))]

/-- What `oneOf` lists (src/ArgParse.cc 853-863). -/
def groupCases (required : Bool) (paths : List VPath) : List Val :=
  let cases := paths.map memberSchema
  if required then cases else cases ++ [.map [(kNot, .map [(kAnyOf, .list cases)])]]

/-- The paths of the members. -/
def memberPaths (s : St) : List Int32 → Out (List VPath)
  | [] => .ok []
  | id :: ids => match s.entry id with
    | none => .ub
    | some o => (o.path :: ·) <$> memberPaths s ids

/-- `ArgParseGroupImpl::GenerateSchema` (src/ArgParse.cc 840-866).  The members are taken in the order of the
model's list; in the code they are in the order of their addresses. -/
def groupSchema (s : St) (g : Group) (sch : Val) : Out Val :=
  if g.exclusive then do
    let ps ← memberPaths s g.members
    let m ← keywords sch
    let m := ensure m kAllOf (.list [])
    match AMap.get m kAllOf with
    | some (.list xs) => .ok (.map (AMap.set m kAllOf (.list (xs ++ [.map [(kOneOf, .list (groupCases g.required ps))]]))))
    | _ => .throw .unexpectedType
  else .ok sch

/-- The loop over the groups (src/ArgParse.cc 1269-1271). -/
def groupSchemas (s : St) : List (Bytes × Group) → Val → Out Val
  | [], sch => .ok sch
  | (_, g) :: gs, sch => match groupSchema s g sch with
    | .ok sch => groupSchemas s gs sch
    | .throw e => .throw e
    | .ub => .ub

/-- `ArgParse::GenerateSchema` (src/ArgParse.cc 752-756, 1262-1274). -/
def generateSchema (w : World) (s : St) : Out Val := do
  let a ← placeAll w s s.reg.options (.map [])
  let b ← placeAll w s s.reg.arguments a
  groupSchemas s s.groups b

end Verif.Args
