import Verif.Schema.MetaText
import Verif.Loader.Model
/-!
# The JSON schema of JSON schemas as a value (src/json-schema-v4.json, src/SchemaLoader.cc 43-52)

`metaSchema base` is the schema with `base` before each reference: with an empty base it is what `DeserializeJSON`
reads from the text, with the schema's URI what `NormSchema` makes of it (`meta_parsed`, `meta_normed`).
-/

namespace Verif.Schema
open Verif

/-- "id" (src/json-schema-v4.json 2, 30) -/
def kId : Bytes := [105, 100]
/-- "title" (src/json-schema-v4.json 38) -/
def kTitle : Bytes := [116, 105, 116, 108, 101]
/-- "description" (src/json-schema-v4.json 4, 41) -/
def kDescription : Bytes := [100, 101, 115, 99, 114, 105, 112, 116, 105, 111, 110]
/-- "definitions" (src/json-schema-v4.json 5, 100) -/
def kDefinitions : Bytes := [100, 101, 102, 105, 110, 105, 116, 105, 111, 110, 115]
/-- "uri" (src/json-schema-v4.json 32, 36) -/
def wUri : Bytes := [117, 114, 105]
/-- "schemaArray" (src/json-schema-v4.json 6) -/
def nSchemaArray : Bytes := [115, 99, 104, 101, 109, 97, 65, 114, 114, 97, 121]
/-- "positiveInteger" (src/json-schema-v4.json 11) -/
def nPositiveInteger : Bytes := [112, 111, 115, 105, 116, 105, 118, 101, 73, 110, 116, 101, 103, 101, 114]
/-- "positiveIntegerDefault0" (src/json-schema-v4.json 15) -/
def nPositiveIntegerDefault0 : Bytes :=
  [112, 111, 115, 105, 116, 105, 118, 101, 73, 110, 116, 101, 103, 101, 114, 68, 101, 102, 97, 117, 108, 116, 48]
/-- "simpleTypes" (src/json-schema-v4.json 18) -/
def nSimpleTypes : Bytes := [115, 105, 109, 112, 108, 101, 84, 121, 112, 101, 115]
/-- "stringArray" (src/json-schema-v4.json 21) -/
def nStringArray : Bytes := [115, 116, 114, 105, 110, 103, 65, 114, 114, 97, 121]
/-- "http://json-schema.org/draft-04/schema" (src/json-schema-v4.json 2) -/
def metaUri : Bytes := [104, 116, 116, 112, 58, 47, 47, 106, 115, 111, 110, 45, 115, 99, 104, 101, 109, 97, 46, 111, 114,
  103, 47, 100, 114, 97, 102, 116, 45, 48, 52, 47, 115, 99, 104, 101, 109, 97]
/-- "Core schema meta-schema" (src/json-schema-v4.json 4) -/
def metaWords : Bytes := [67, 111, 114, 101, 32, 115, 99, 104, 101, 109, 97, 32, 109, 101, 116, 97, 45, 115, 99, 104, 101,
  109, 97]
/-- "/definitions/" (src/json-schema-v4.json 16) -/
def inDefinitions : Bytes := [47, 100, 101, 102, 105, 110, 105, 116, 105, 111, 110, 115, 47]

/-- `{"$ref": "#…"}` (src/json-schema-v4.json 9, 16, …). -/
def refTo (base frag : Bytes) : Val := .map [(kRef, .str (base ++ 35 :: frag))]
/-- `{"type": …}`. -/
def typed (w : Bytes) : Val := .map [(kType, .str w)]

/-- Lines 6-10 of src/json-schema-v4.json. -/
def schemaArray (base : Bytes) : Val :=
  .map [(kItems, refTo base []), (kMinItems, .uint 1), (kType, .str wArray)]
/-- Lines 11-14. -/
def positiveInteger : Val := .map [(kMinimum, .uint 0), (kType, .str wInteger)]
/-- Lines 15-17. -/
def positiveIntegerDefault0 (base : Bytes) : Val :=
  .map [(kAllOf, .list [refTo base (inDefinitions ++ nPositiveInteger), .map [(kDefault, .uint 0)]])]
/-- Lines 18-20. -/
def simpleTypes : Val :=
  .map [(kEnum, .list [.str wArray, .str wBoolean, .str wInteger, .str wNull, .str wNumber, .str wObject, .str wString])]
/-- Lines 21-26. -/
def stringArray : Val :=
  .map [(kItems, typed wString), (kMinItems, .uint 1), (kType, .str wArray), (kUniqueItems, .bool true)]

/-- Lines 30-33, 34-37. -/
def uriText : Val := .map [(kFormat, .str wUri), (kType, .str wString)]
/-- Lines 45-49. -/
def positiveNumber : Val := .map [(kExclusiveMinimum, .bool true), (kMinimum, .uint 0), (kType, .str wNumber)]
/-- Lines 53-56, 60-63, 86-89. -/
def flag : Val := .map [(kDefault, .bool false), (kType, .str wBoolean)]
/-- Lines 66-69. -/
def regexText : Val := .map [(kFormat, .str wRegex), (kType, .str wString)]
/-- Lines 70-76, 93-99. -/
def flagOrSchema (base : Bytes) : Val :=
  .map [(kAnyOf, .list [typed wBoolean, refTo base []]), (kDefault, .map [])]
/-- Lines 77-83. -/
def schemaOrSchemas (base : Bytes) : Val :=
  .map [(kAnyOf, .list [refTo base [], refTo base (inDefinitions ++ nSchemaArray)]), (kDefault, .map [])]
/-- Lines 100-104, 105-109, 110-114. -/
def schemasByName (base : Bytes) : Val :=
  .map [(kAdditionalProperties, refTo base []), (kDefault, .map []), (kType, .str wObject)]
/-- Lines 117-122. -/
def dependency (base : Bytes) : Val :=
  .map [(kAnyOf, .list [refTo base [], refTo base (inDefinitions ++ nStringArray)])]
/-- Lines 115-123. -/
def dependenciesByName (base : Bytes) : Val :=
  .map [(kAdditionalProperties, dependency base), (kType, .str wObject)]
/-- Lines 124-128. -/
def choices : Val := .map [(kMinItems, .uint 1), (kType, .str wArray), (kUniqueItems, .bool true)]
/-- Lines 132-137. -/
def typeList (base : Bytes) : Val :=
  .map [(kItems, refTo base (inDefinitions ++ nSimpleTypes)), (kMinItems, .uint 1), (kType, .str wArray),
    (kUniqueItems, .bool true)]
/-- Lines 129-139. -/
def typeOrTypes (base : Bytes) : Val :=
  .map [(kAnyOf, .list [refTo base (inDefinitions ++ nSimpleTypes), typeList base])]

/-- Lines 5-27. -/
def metaDefinitions (base : Bytes) : List (Bytes × Val) :=
  [(nPositiveInteger, positiveInteger), (nPositiveIntegerDefault0, positiveIntegerDefault0 base),
   (nSchemaArray, schemaArray base), (nSimpleTypes, simpleTypes), (nStringArray, stringArray)]

/-- Lines 29-144, sorted by name. -/
def metaProperties (base : Bytes) : List (Bytes × Val) :=
  let size := refTo base (inDefinitions ++ nPositiveInteger)
  let size0 := refTo base (inDefinitions ++ nPositiveIntegerDefault0)
  let array := refTo base (inDefinitions ++ nSchemaArray)
  [(kSchema, uriText),
   (kAdditionalItems, flagOrSchema base),
   (kAdditionalProperties, flagOrSchema base),
   (kAllOf, array),
   (kAnyOf, array),
   (kDefault, .map []),
   (kDefinitions, schemasByName base),
   (kDependencies, dependenciesByName base),
   (kDescription, typed wString),
   (kEnum, choices),
   (kExclusiveMaximum, flag),
   (kExclusiveMinimum, flag),
   (kId, uriText),
   (kItems, schemaOrSchemas base),
   (kMaxItems, size),
   (kMaxLength, size),
   (kMaxProperties, size),
   (kMaximum, typed wNumber),
   (kMinItems, size0),
   (kMinLength, size0),
   (kMinProperties, size0),
   (kMinimum, typed wNumber),
   (kMultipleOf, positiveNumber),
   (kNot, refTo base []),
   (kOneOf, array),
   (kPattern, regexText),
   (kPatternProperties, schemasByName base),
   (kProperties, schemasByName base),
   (kRequired, refTo base (inDefinitions ++ nStringArray)),
   (kTitle, typed wString),
   (kType, typeOrTypes base),
   (kUniqueItems, flag)]

/-- Lines 145-148. -/
def metaDependencies : List (Bytes × Val) :=
  [(kExclusiveMaximum, .list [.str kMaximum]), (kExclusiveMinimum, .list [.str kMinimum])]

/-- The entries of the schema of schemas. -/
def metaMap (base : Bytes) : List (Bytes × Val) :=
  [(kSchema, .str (metaUri ++ [35])),
   (kDefault, .map []),
   (kDefinitions, .map (metaDefinitions base)),
   (kDependencies, .map metaDependencies),
   (kDescription, .str metaWords),
   (kId, .str (metaUri ++ [35])),
   (kProperties, .map (metaProperties base)),
   (kType, .str wObject)]

/-- The schema of schemas. -/
def metaSchema (base : Bytes) : Val := .map (metaMap base)

/-- `SchemaStaticData` (src/SchemaLoader.cc 46-50) with what was read from the text: the URI is the schema's `id`
resolved against nothing, and the schema is normalised. -/
def staticOf : Out (Val × List Bytes) → Out (Bytes × Val)
  | .ok (.map m, _) => match AMap.get m kId with
    | some (.str i) => .ok (Uri.resolveURI i [], Loader.norm (Uri.resolveURI i []) (.map m))
    | _ => .throw .unableToConvert
  | .ok _ => .throw .unableToConvert
  | .throw e => .throw e
  | .ub => .ub

/-- `SchemaStaticData` (src/SchemaLoader.cc 46-50): the URI and the schema in every loader (74, 84). -/
def schemaStaticData (fo : JsonDrv.FloatOps) : Out (Bytes × Val) := staticOf (JsonDrv.deserialize fo [metaText])

mutual
/-- Comparing values, to let the kernel check that the text above is the schema above. -/
def same : Val → Val → Bool
  | .null, .null => true
  | .bool a, .bool b => a == b
  | .int a, .int b => a == b
  | .uint a, .uint b => a == b
  | .str a, .str b => a == b
  | .list a, .list b => sameList a b
  | .map a, .map b => sameMap a b
  | _, _ => false
/-- See `same`. -/
def sameList : List Val → List Val → Bool
  | [], [] => true
  | a :: as, b :: bs => same a b && sameList as bs
  | _, _ => false
/-- See `same`. -/
def sameMap : List (Bytes × Val) → List (Bytes × Val) → Bool
  | [], [] => true
  | (k, a) :: as, (l, b) :: bs => k == l && same a b && sameMap as bs
  | _, _ => false
end

mutual
theorem same_eq : ∀ {a b : Val}, same a b = true → a = b
  | .null, b, h => by cases b <;> simp [same] at h ⊢
  | .bool _, b, h => by cases b <;> simp [same] at h ⊢; exact h
  | .int _, b, h => by cases b <;> simp [same] at h ⊢; exact h
  | .uint _, b, h => by cases b <;> simp [same] at h ⊢; exact h
  | .flt _, b, h => by cases b <;> simp [same] at h
  | .str _, b, h => by cases b <;> simp [same] at h ⊢; exact h
  | .blob _, b, h => by cases b <;> simp [same] at h
  | .list as, b, h => by
    cases b <;> simp [same] at h ⊢
    exact sameList_eq h
  | .map as, b, h => by
    cases b <;> simp [same] at h ⊢
    exact sameMap_eq h
theorem sameList_eq : ∀ {a b : List Val}, sameList a b = true → a = b
  | [], b, h => by cases b <;> simp [sameList] at h ⊢
  | a :: as, b, h => by
    cases b <;> simp [sameList] at h ⊢
    exact ⟨same_eq h.1, sameList_eq h.2⟩
theorem sameMap_eq : ∀ {a b : List (Bytes × Val)}, sameMap a b = true → a = b
  | [], b, h => by cases b <;> simp [sameMap] at h ⊢
  | (k, a) :: as, b, h => by
    cases b <;> simp [sameMap] at h ⊢
    rename_i x _
    obtain ⟨l, b⟩ := x
    simp at h ⊢
    exact ⟨⟨h.1.1, same_eq h.1.2⟩, sameMap_eq h.2⟩
end

/-- What was read from a text is a given value. -/
def readAs (o : Out (Val × List Bytes)) (v : Val) : Bool :=
  match o with
  | .ok (w, _) => same w v
  | _ => false

theorem meta_normed : Loader.norm metaUri (metaSchema []) = metaSchema metaUri :=
  same_eq (by decide +kernel)

theorem meta_uri : Uri.resolveURI (metaUri ++ [35]) [] = metaUri := by decide +kernel

theorem static_of {o : Out (Val × List Bytes)} (h : readAs o (metaSchema []) = true) :
    staticOf o = .ok (metaUri, metaSchema metaUri) := by
  unfold readAs at h
  split at h
  · rename_i v left
    have hv := same_eq h
    subst hv
    have g : AMap.get (metaMap []) kId = some (.str (metaUri ++ [35])) := rfl
    show (match AMap.get (metaMap []) kId with
      | some (.str i) => Out.ok (Uri.resolveURI i [], Loader.norm (Uri.resolveURI i []) (.map (metaMap [])))
      | _ => .throw .unableToConvert) = _
    rw [g]
    show Out.ok (Uri.resolveURI (metaUri ++ [35]) [], Loader.norm (Uri.resolveURI (metaUri ++ [35]) []) (metaSchema [])) = _
    rw [meta_uri, meta_normed]
  · cases h

end Verif.Schema
