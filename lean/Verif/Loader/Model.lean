import Verif.Uri.Model
import Verif.Ext.Pointer
import Verif.Schema.Model
/-!
# The schema loader (src/SchemaLoader.cc 56-87, 120-179, 360-408, 420-570)

Values are trees: `NormSchema` changes the storage of the schema given to `AddSchema`, which the caller and the
loader share, so what is stored is the normalised schema.  (If a part of it is shared between two places, the code
normalises it twice; not modelled.)  Error messages are not modelled.
-/

namespace Verif.Loader
open Verif Uri Ext

/-- "id" (src/SchemaLoader.cc 363) -/
def kId : Bytes := [105, 100]
/-- "$ref" (src/SchemaLoader.cc 367) -/
def kRef : Bytes := [36, 114, 101, 102]
/-- "enum" (src/SchemaLoader.cc 371) -/
def kEnum : Bytes := [101, 110, 117, 109]
/-- "file:" (src/SchemaLoader.cc 440) -/
def sFile : Bytes := [102, 105, 108, 101, 58]

/-! ## Normalising -/

/-- `schema[k]` if it is a string. -/
def strAt (m : List (Bytes × Val)) (k : Bytes) : Option Bytes :=
  match AMap.get m k with
  | some (.str s) => some s
  | _ => none

/-- The base URI inside a map (src/SchemaLoader.cc 361, 363-364). -/
def baseOf (uri : Bytes) (m : List (Bytes × Val)) : Bytes :=
  match strAt m kId with
  | some i => resolveURI uri i
  | none => uri

/-- The map with its `id` resolved (363-366). -/
def normId (uri : Bytes) (m : List (Bytes × Val)) : List (Bytes × Val) :=
  match strAt m kId with
  | some i => AMap.set m kId (.str (resolveURI uri i))
  | none => m

mutual
/-- `NormSchema` (src/SchemaLoader.cc 360-381).  The loop over the entries (370-374) goes over the map after its
`id` was replaced; a string stays as it is. -/
def norm (uri : Bytes) : Val → Val
  | .map m =>
    match strAt m kRef with
    | some r => .map (AMap.set (normId uri m) kRef (.str (resolveURI (baseOf uri m) r)))
    | none => .map (match strAt m kId with
      | some i => AMap.set (normMap (resolveURI uri i) m) kId (.str (resolveURI uri i))
      | none => normMap uri m)
  | .list xs => .list (normList uri xs)
  | v => v
/-- The entries of a map (370-374). -/
def normMap (uri : Bytes) : List (Bytes × Val) → List (Bytes × Val)
  | [] => []
  | (k, v) :: m => (k, if k = kEnum then v else norm uri v) :: normMap uri m
/-- The elements of a list (377-379). -/
def normList (uri : Bytes) : List Val → List Val
  | [] => []
  | x :: xs => norm uri x :: normList uri xs
end

/-! ## Registering -/

/-- `std::map<std::string, Variant>` and `Variant::Map schemas`. -/
abbrev Schemas := List (Bytes × Val)

/-- Whether a schema found inside another may be registered under its id (src/SchemaLoader.cc 389-393).
`remainder[0]` of an empty string is NUL. -/
def trusted (uri i : Bytes) : Bool :=
  i.take uri.length = uri &&
    (uri.getLast? = some 47 || (i.drop uri.length).head? = some 35 || (i.drop uri.length).head? = some 63)

/-- Registering a map under its own id (387-400). -/
def addOwn (uri : Bytes) (acc : Schemas) (m : List (Bytes × Val)) : Schemas :=
  match strAt m kId with
  | some i => if trusted uri i ∧ AMap.get acc i = none then AMap.set acc i (.map m) else acc
  | none => acc

mutual
/-- `SearchForTrustedSchemas` (src/SchemaLoader.cc 383-408). -/
def search (uri : Bytes) (acc : Schemas) : Val → Schemas
  | .map m => searchMap uri (addOwn uri acc m) m
  | _ => acc
/-- The entries that are maps (402-406). -/
def searchMap (uri : Bytes) (acc : Schemas) : List (Bytes × Val) → Schemas
  | [] => acc
  | (k, v) :: m => searchMap uri (if k ≠ kEnum then search uri acc v else acc) m
end

/-- `schemas.insert(m.begin(), m.end())`: what is there already stays. -/
def insertAll (s : Schemas) : Schemas → Schemas
  | [] => s
  | (k, v) :: m => insertAll (if AMap.get s k = none then AMap.set s k v else s) m

/-- What `AddSchema` registers and returns (src/SchemaLoader.cc 152-156, 158). -/
def found (uri : Bytes) (v : Val) : Schemas :=
  let luri := resolveURI uri []
  search luri [(luri, norm luri v)] (norm luri v)

/-- `AddSchema` (src/SchemaLoader.cc 151-159): the loader's schemas after it. -/
def addSchema (s : Schemas) (uri : Bytes) (v : Val) : Schemas := insertAll s (found uri v)

/-- `ForgetSchema` (src/SchemaLoader.cc 161-163). -/
def forgetSchema (s : Schemas) (uri : Bytes) : Schemas := AMap.erase s uri

/-! ## Looking up -/

/-- What a missing handler does to the loader's schemas, and its answer. -/
abbrev Handler := Schemas → Bytes → Schemas × Out Bool

/-- A loader (include/Variant/SchemaLoader.h); its bases come after it in a list. -/
structure Layer where
  schemas : Schemas
  handler : Option Handler

/-- The URI before the `#` and the fragment (src/SchemaLoader.cc 125-131). -/
def splitUri (uri : Bytes) : Bytes × Bytes :=
  if 35 ∈ uri then (uri.takeWhile (· ≠ 35), (uri.dropWhile (· ≠ 35)).tail) else (resolveURI uri [], [])

/-- The part of a schema a fragment points at (src/SchemaLoader.cc 147-148). -/
def inside (p : Nat) (schema : Val) (fragment : Bytes) : Out Val :=
  match unescapeURI fragment with
  | .ok f => (pointerLookup p schema f).2
  | .throw e => .throw e
  | .ub => .ub

/-- `HandleMissing` of a loader without base (src/SchemaLoader.cc 165-174). -/
def handleMissing (l : Layer) (uri : Bytes) : Layer × Out Bool :=
  match l.handler with
  | some h => ({ l with schemas := (h l.schemas uri).1 }, (h l.schemas uri).2)
  | none => (l, .ok false)

/-- `GetSchema` (src/SchemaLoader.cc 120-149) of the first loader of a list of loaders, each the base of the one
before it. -/
def getSchema (p : Nat) : List Layer → Bytes → List Layer × Out Val
  | [], _ => ([], .ub)
  | l :: bases, uri =>
    match AMap.get l.schemas uri with
    | some v => (l :: bases, .ok v)
    | none => match AMap.get l.schemas (splitUri uri).1 with
      | some v => (l :: bases, inside p v (splitUri uri).2)
      | none =>
        if bases ≠ [] then (l :: (getSchema p bases uri).1, (getSchema p bases uri).2)
        else
          let r := handleMissing l (splitUri uri).1
          ([r.1], match r.2 with
            | .ok true => match AMap.get r.1.schemas (splitUri uri).1 with
              | some v => inside p v (splitUri uri).2
              | none => .ok .null
            | .ok false => .throw .runtime
            | .throw e => .throw e
            | .ub => .ub)

/-! ## `AdvSchemaLoader` -/

/-- Files and the network. -/
structure Sources where
  /-- `DeserializeGuessFile` of a C string -/
  file : Bytes → Out Val
  /-- fetching with curl; throws if curl is not compiled in -/
  fetch : Bytes → Out Bytes
  /-- `DeserializeGuess` -/
  decode : Bytes → Out Val

/-- A step of a handler: `AddSchema` of what was read; `false` when reading threw (src/SchemaLoader.cc 474-480,
485-490, 553-561). -/
def tryAdd (s : Schemas) (uri : Bytes) : Out Val → Schemas × Out Bool
  | .ok v => (addSchema s uri v, .ok true)
  | .throw _ => (s, .ok false)
  | .ub => (s, .ub)

/-- If the answer is `false`, go on with something else. -/
def orElse (r : Schemas × Out Bool) (f : Schemas → Schemas × Out Bool) : Schemas × Out Bool :=
  match r with
  | (s, .ok false) => f s
  | r => r

/-- The path of a file (src/SchemaLoader.cc 457-471). -/
def filePath (i : Info) : Bytes :=
  (if i.authority ≠ [] then
    if i.protocol ≠ [] ∧ i.authority.take 2 = [47, 47] then i.authority.drop 2 else i.authority
  else []) ++ i.pathname

/-- The search along the paths (src/SchemaLoader.cc 483-491). -/
def searchPaths (src : Sources) (s : Schemas) (href path : Bytes) : List Bytes → Schemas × Out Bool
  | [] => (s, .ok false)
  | d :: ds => orElse (tryAdd s href (src.file ((d ++ 47 :: path).takeWhile (· ≠ 0)))) fun s => searchPaths src s href path ds

/-- `LoadFromFile` (src/SchemaLoader.cc 455-493). -/
def loadFromFile (src : Sources) (paths : List Bytes) (s : Schemas) (i : Info) : Schemas × Out Bool :=
  if (filePath i).head? = some 47 then tryAdd s i.href (src.file ((filePath i).takeWhile (· ≠ 0)))
  else searchPaths src s i.href (filePath i) paths

/-- What is fetched (src/SchemaLoader.cc 516, 554-556): the first element of an empty buffer is undefined. -/
def fetched (src : Sources) (i : Info) : Out Val :=
  match src.fetch (i.protocol ++ i.authority ++ i.pathname ++ i.search) with
  | .ok b => if b = [] then .ub else src.decode b
  | .throw e => .throw e
  | .ub => .ub

/-- `LoadFromCurl` (src/SchemaLoader.cc 552-562). -/
def loadFromCurl (src : Sources) (s : Schemas) (i : Info) : Schemas × Out Bool :=
  tryAdd s (i.protocol ++ i.authority ++ i.pathname ++ i.search) (fetched src i)

/-- `SchemaLoader::HandleMissing` of a loader without base. -/
def plainMissing (user : Option Handler) (s : Schemas) (uri : Bytes) : Schemas × Out Bool :=
  match user with
  | some h => h s uri
  | none => (s, .ok false)

/-- `AdvSchemaLoader::HandleMissing` (src/SchemaLoader.cc 424-453). -/
def advMissing (src : Sources) (paths : List Bytes) (user : Option Handler) : Handler := fun s uri =>
  if uri = [] then plainMissing user s uri
  else match parseURI uri with
    | none => plainMissing user s uri
    | some i =>
      if i.href.head? = some 47 ∨ i.href.head? = some 46 then
        orElse (loadFromFile src paths s i) fun s => plainMissing user s uri
      else if i.protocol = [] then
        orElse (orElse (loadFromFile src paths s i) fun s => loadFromCurl src s i) fun s => plainMissing user s uri
      else if i.protocol = sFile then
        orElse (loadFromFile src paths s i) fun s => plainMissing user s uri
      else orElse (loadFromCurl src s i) fun s => plainMissing user s uri

/-! ## Validating with a loader -/

/-- The local loader of `SchemaValidate` after `AddSchema("", schema)` (src/Schema.cc 828, 835); `meta` is the
JSON schema for schemas every loader knows (src/SchemaLoader.cc 77-85). -/
def localLayer (builtin : Bytes × Val) (schema : Val) : Layer := ⟨addSchema [builtin] [] schema, none⟩

end Verif.Loader
