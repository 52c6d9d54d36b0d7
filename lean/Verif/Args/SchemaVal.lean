import Verif.Args.Desc
import Verif.Args.SchemaText
import Verif.Schema.MetaParsed
/-!
# The schema of descriptions as a value (src/argparse-schema.cc 5-184, src/argparse-schema.yaml, src/ArgParse.cc 38-44)

The text is one line, sorted otherwise than the parsed map; line numbers below are those of src/argparse-schema.yaml, the
file that the bytes in src/argparse-schema.cc were made from.
-/

namespace Verif.Args
open Verif Schema

/-- "actions" (src/argparse-schema.yaml 4) -/
def nActions : Bytes := [97, 99, 116, 105, 111, 110, 115]
/-- "types" (19) -/
def nTypes : Bytes := [116, 121, 112, 101, 115]
/-- "optionBase" (28) -/
def nOptionBase : Bytes := [111, 112, 116, 105, 111, 110, 66, 97, 115, 101]
/-- "unique" (82), which no validator looks at: the keyword is `uniqueItems`. -/
def kUnique : Bytes := [117, 110, 105, 113, 117, 101]

/-- The names of the actions (src/argparse-schema.yaml 6-18). -/
def actionWords : List Bytes := [wStore, wStoreConst, wStoreTrue, wStoreFalse, wAppend, wCount, wHelp, wAdvHelp, wConfig,
  wConfigJson, wConfigYaml, wConfigPlist, wConfigPrint]

/-- The schema of actions (4-18). -/
def actionSchema : Val := .map [(kEnum, .list (actionWords.map .str))]
/-- The schema of types: five names, or null (19-26). -/
def typeSchema : Val :=
  .map [(kEnum, .list [.str wString, .str wBoolean, .str wInteger, .str wNumber, .str wNull, .null])]
/-- The schema of a choice (42). -/
def choiceSchema : Val := .map [(kType, .list [.str wBoolean, .str wInteger, .str wNumber, .str wString])]
/-- The schema of the choices (38-42). -/
def choicesSchema : Val :=
  .map [(kItems, choiceSchema), (kMinItems, .uint 1), (kType, .str wArray), (kUniqueItems, .bool true)]

/-- What options and arguments have in common, key by key (29-52). -/
def baseProperties : List (Bytes × Val) :=
  [(kAction, refTo [] (inDefinitions ++ nActions)),
   (kAdvanced, flag),
   (kConst, .map []),
   (kDefault, .map []),
   (kDescription, typed wString),
   (kEnum, choicesSchema),
   (kMaxArgs, positiveInteger),
   (kMaxLength, positiveInteger),
   (kMaximum, typed wNumber),
   (kMinArgs, positiveInteger),
   (kMinLength, positiveInteger),
   (kMinimum, typed wNumber),
   (kPattern, regexText),
   (kRequired, flag),
   (kTitle, typed wString),
   (kType, refTo [] (inDefinitions ++ nTypes))]

/-- The schema of what options and arguments have in common (28-53). -/
def baseSchema : Val :=
  .map [(kProperties, .map baseProperties), (kRequired, .list [.str kTitle, .str kDescription, .str kAction])]

/-- The schema of short names (66). -/
def shortSchema : Val := .map [(kMaxLength, .uint 1), (kMinLength, .uint 1), (kType, .str wString)]
/-- A key has to be there (70-71). -/
def needsKey (k : Bytes) : Val := .map [(kRequired, .list [.str k])]

/-- The keys that only options have (64-67). -/
def optionProperties : List (Bytes × Val) := [(kEnv, typed wString), (kLongOption, typed wString), (kShortOption, shortSchema)]
/-- The schema of an option (63-71). -/
def optionSchema : Val :=
  .map [(kAllOf, .list [refTo [] (inDefinitions ++ nOptionBase)]),
    (kAnyOf, .list [needsKey kShortOption, needsKey kLongOption]),
    (kProperties, .map optionProperties),
    (kType, .str wObject)]
/-- The schema of an argument (86-90). -/
def argumentSchema : Val :=
  .map [(kAllOf, .list [refTo [] (inDefinitions ++ nOptionBase)]),
    (kProperties, .map [(kKeypath, typed wString)]),
    (kRequired, .list [.str kKeypath]),
    (kType, .str wObject)]
/-- The schema of the members of a group (82). -/
def membersSchema : Val := .map [(kItems, typed wString), (kType, .str wArray), (kUnique, .bool true)]
/-- The keys of a group (76-82). -/
def groupProperties : List (Bytes × Val) :=
  [(kAdvanced, flag), (kDescription, typed wString), (kMembers, membersSchema), (kExclusive, typed wBoolean),
   (kRequired, typed wBoolean), (kTitle, typed wString)]
/-- The schema of a group (75-82). -/
def groupOfSchema : Val := .map [(kProperties, .map groupProperties), (kType, .str wObject)]

/-- The schemas that are referred to (3-53). -/
def argDefinitions : List (Bytes × Val) :=
  [(nActions, actionSchema), (nOptionBase, baseSchema), (nTypes, typeSchema)]
/-- The keys of a description (56-90). -/
def argProperties : List (Bytes × Val) :=
  [(kArguments, .map [(kItems, argumentSchema), (kType, .str wArray)]),
   (kDescription, typed wString),
   (kEpilog, typed wString),
   (kGroups, .map [(kAdditionalProperties, groupOfSchema), (kType, .str wObject)]),
   (kOptions, .map [(kAdditionalProperties, optionSchema), (kType, .str wObject)]),
   (kTitle, typed wString)]
/-- The entries of the schema of descriptions (2-90). -/
def argMap : List (Bytes × Val) :=
  [(kSchema, .str (metaUri ++ [35])),
   (kDefinitions, .map argDefinitions),
   (kProperties, .map argProperties),
   (kType, .str wObject)]
/-- The schema of descriptions: `arg_parse_static.schema` (src/ArgParse.cc 39-44). -/
def argSchema : Val := .map argMap

/-- The schema of the model is what `DeserializeJSON` reads from the text in the source (src/ArgParse.cc 41). -/
theorem arg_read (fo : JsonDrv.FloatOps) : readAs (JsonDrv.deserialize fo [schemaText]) argSchema = true := by
  kernel_refl

theorem arg_normed : Loader.norm [] argSchema = argSchema := same_eq (by decide +kernel)

end Verif.Args
