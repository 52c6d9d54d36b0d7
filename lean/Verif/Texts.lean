import Verif.Args.Desc
import Verif.Args.Help
import Verif.Args.Parse
import Verif.Args.Register
import Verif.Args.SchemaText
import Verif.Args.SchemaVal
import Verif.Args.World
import Verif.Bundle.Model
import Verif.Conv.Params
import Verif.Conv.Round
import Verif.Defaults.Model
import Verif.Guess.Props
import Verif.Loader.Examples
import Verif.Loader.Model
import Verif.Schema.Print
import Verif.Schema.Meta
import Verif.Schema.Words
import Verif.Tool.Run
import Verif.Tool.Varsh
import Verif.Xml.Model
import Verif.Yaml.Model
import Verif.Yaml.ReadProps
/-!
# The texts of the model

The texts the code compares with or writes are lists of bytes in the model.  Here each is given again
as it stands in the code.
-/

namespace Verif

/-- The bytes of a text of ASCII characters. -/
def ascii (s : String) : Bytes := s.toList.map fun c => UInt8.ofNat c.toNat

example : Xml.nMap = ascii "dict" := by decide +kernel
example : Xml.nString = ascii "string" := by decide +kernel
example : Xml.nTrue = ascii "true" := by decide +kernel
example : Xml.nFalse = ascii "false" := by decide +kernel
example : Xml.nInteger = ascii "integer" := by decide +kernel
example : Xml.nFloat = ascii "real" := by decide +kernel
example : Xml.nRoot = ascii "plist" := by decide +kernel
example : Xml.nList = ascii "array" := by decide +kernel
example : Xml.nNull = ascii "null" := by decide +kernel
example : Xml.nKey = ascii "key" := by decide +kernel
example : Xml.nBlob = ascii "data" := by decide +kernel
example : Yaml.binaryTag = ascii "tag:yaml.org,2002:binary" := by decide +kernel
example : Yaml.tNull = ascii "null" := by decide +kernel
example : Yaml.tTrue = ascii "true" := by decide +kernel
example : Yaml.tFalse = ascii "false" := by decide +kernel
example : Yaml.tNan = ascii ".nan" := by decide +kernel
example : Yaml.tInf = ascii ".inf" := by decide +kernel
example : Yaml.tMinusInf = ascii "-.inf" := by decide +kernel
example : Yaml.intTag = ascii "tag:yaml.org,2002:int" := by decide +kernel
example : Loader.hashS = ascii "#s" := by decide +kernel
example : Loader.kId = ascii "id" := by decide +kernel
example : Loader.kRef = ascii "$ref" := by decide +kernel
example : Loader.kEnum = ascii "enum" := by decide +kernel
example : Loader.sFile = ascii "file:" := by decide +kernel
example : Bundle.versionKey = ascii "bundle.version" := by decide +kernel
example : Args.kShortOption = ascii "shortOption" := by decide +kernel
example : Args.kLongOption = ascii "longOption" := by decide +kernel
example : Args.kAction = ascii "action" := by decide +kernel
example : Args.kKeypath = ascii "keypath" := by decide +kernel
example : Args.kAdvanced = ascii "advanced" := by decide +kernel
example : Args.kOptions = ascii "options" := by decide +kernel
example : Args.kGroups = ascii "groups" := by decide +kernel
example : Args.kArguments = ascii "arguments" := by decide +kernel
example : Args.kEpilog = ascii "epilog" := by decide +kernel
example : Args.kMembers = ascii "members" := by decide +kernel
example : Args.kExclusive = ascii "mutually exclusive" := by decide +kernel
example : Args.wStore = ascii "store" := by decide +kernel
example : Args.wStoreConst = ascii "store_const" := by decide +kernel
example : Args.wStoreTrue = ascii "store_true" := by decide +kernel
example : Args.wStoreFalse = ascii "store_false" := by decide +kernel
example : Args.wAppend = ascii "append" := by decide +kernel
example : Args.wCount = ascii "count" := by decide +kernel
example : Args.wHelp = ascii "help" := by decide +kernel
example : Args.wAdvHelp = ascii "adv_help" := by decide +kernel
example : Args.wConfig = ascii "config" := by decide +kernel
example : Args.wConfigJson = ascii "config_json" := by decide +kernel
example : Args.wConfigYaml = ascii "config_yaml" := by decide +kernel
example : Args.wConfigPlist = ascii "config_plist" := by decide +kernel
example : Args.wConfigPrint = ascii "config_print" := by decide +kernel
example : Args.yesNo = ascii "yes|no" := by decide +kernel
example : Args.fileWord = ascii "FILE" := by decide +kernel
example : Args.noTitle = ascii "XXX" := by decide +kernel
example : Args.defaultWord = ascii " (default: " := by decide +kernel
example : Args.usageWord = ascii ": [options]" := by decide +kernel
example : Args.helpPath = ascii "default-help-option" := by decide +kernel
example : Args.helpLong = ascii "help" := by decide +kernel
example : Args.advPath = ascii "default-adv-help-option" := by decide +kernel
example : Args.advLong = ascii "adv-help" := by decide +kernel
example : Args.helpSays = ascii "Print this message and exit." := by decide +kernel
example : Args.advSays = ascii "Print help message including options marked as advanced." := by decide +kernel
example : Args.kDescription = ascii "description" := by decide +kernel
example : Args.kTitle = ascii "title" := by decide +kernel
example : Args.kMinArgs = ascii "minArgs" := by decide +kernel
example : Args.kMaxArgs = ascii "maxArgs" := by decide +kernel
example : Args.schemaLines1 = ascii "{\"definitions\": {\"actions\": {\"enum\": [\"store\", \"store_const\", \"store_true\", \"store_false\", \"append\", \"count\", \"help\", \"adv_help\", \"config\", \"config_json\", \"config_yaml\", \"config_plist\", \"config_print\"]}, \"types\": {\"enum\": [\"string\", \"boolean\", \"integer\", \"number\", \"null\", null]}, \"optionBase\": {\"required\": [\"title\", \"description\", \"action\"], \"properties\": {\"" := by decide +kernel
example : Args.schemaLines2 = ascii "description\": {\"type\": \"string\"}, \"minLength\": {\"minimum\": 0, \"type\": \"integer\"}, \"maxArgs\": {\"minimum\": 0, \"type\": \"integer\"}, \"enum\": {\"minItems\": 1, \"uniqueItems\": true, \"type\": \"array\", \"items\": {\"type\": [\"boolean\", \"integer\", \"number\", \"string\"]}}, \"minimum\": {\"type\": \"number\"}, \"maxLength\": {\"minimum\": 0, \"type\": \"integer\"}, \"minArgs\": {\"minimum\": 0, \"" := by decide +kernel
example : Args.schemaLines3 = ascii "type\": \"integer\"}, \"advanced\": {\"default\": false, \"type\": \"boolean\"}, \"const\": {}, \"title\": {\"type\": \"string\"}, \"default\": {}, \"pattern\": {\"type\": \"string\", \"format\": \"regex\"}, \"required\": {\"default\": false, \"type\": \"boolean\"}, \"maximum\": {\"type\": \"number\"}, \"action\": {\"$ref\": \"#/definitions/actions\"}, \"type\": {\"$ref\": \"#/definitions/types\"}}}}, \"$schema\": \"" := by decide +kernel
example : Args.schemaLines4 = ascii "http://json-schema.org/draft-04/schema#\", \"type\": \"object\", \"properties\": {\"description\": {\"type\": \"string\"}, \"groups\": {\"additionalProperties\": {\"type\": \"object\", \"properties\": {\"description\": {\"type\": \"string\"}, \"members\": {\"items\": {\"type\": \"string\"}, \"unique\": true, \"type\": \"array\"}, \"title\": {\"type\": \"string\"}, \"required\": {\"type\": \"boolean\"}, \"advanced" := by decide +kernel
example : Args.schemaLines5 = ascii "\": {\"default\": false, \"type\": \"boolean\"}, \"mutually exclusive\": {\"type\": \"boolean\"}}}, \"type\": \"object\"}, \"title\": {\"type\": \"string\"}, \"epilog\": {\"type\": \"string\"}, \"options\": {\"additionalProperties\": {\"type\": \"object\", \"anyOf\": [{\"required\": [\"shortOption\"]}, {\"required\": [\"longOption\"]}], \"properties\": {\"longOption\": {\"type\": \"string\"}, \"shortOption\": {\"mi" := by decide +kernel
example : Args.schemaLines6 = ascii "nLength\": 1, \"type\": \"string\", \"maxLength\": 1}, \"env\": {\"type\": \"string\"}}, \"allOf\": [{\"$ref\": \"#/definitions/optionBase\"}]}, \"type\": \"object\"}, \"arguments\": {\"items\": {\"required\": [\"keypath\"], \"type\": \"object\", \"properties\": {\"keypath\": {\"type\": \"string\"}}, \"allOf\": [{\"$ref\": \"#/definitions/optionBase\"}]}, \"type\": \"array\"}}}" := by decide +kernel
example : Args.nActions = ascii "actions" := by decide +kernel
example : Args.nTypes = ascii "types" := by decide +kernel
example : Args.nOptionBase = ascii "optionBase" := by decide +kernel
example : Args.kUnique = ascii "unique" := by decide +kernel
example : Args.kConst = ascii "const" := by decide +kernel
example : Args.kEnv = ascii "env" := by decide +kernel
example : Defaults.kSchema = ascii "$schema" := by decide +kernel
example : Schema.kId = ascii "id" := by decide +kernel
example : Schema.kTitle = ascii "title" := by decide +kernel
example : Schema.kDescription = ascii "description" := by decide +kernel
example : Schema.kDefinitions = ascii "definitions" := by decide +kernel
example : Schema.wUri = ascii "uri" := by decide +kernel
example : Schema.nSchemaArray = ascii "schemaArray" := by decide +kernel
example : Schema.nPositiveInteger = ascii "positiveInteger" := by decide +kernel
example : Schema.nPositiveIntegerDefault0 = ascii "positiveIntegerDefault0" := by decide +kernel
example : Schema.nSimpleTypes = ascii "simpleTypes" := by decide +kernel
example : Schema.nStringArray = ascii "stringArray" := by decide +kernel
example : Schema.metaUri = ascii "http://json-schema.org/draft-04/schema" := by decide +kernel
example : Schema.metaWords = ascii "Core schema meta-schema" := by decide +kernel
example : Schema.inDefinitions = ascii "/definitions/" := by decide +kernel
example : Schema.kRef = ascii "$ref" := by decide +kernel
example : Schema.kType = ascii "type" := by decide +kernel
example : Schema.kEnum = ascii "enum" := by decide +kernel
example : Schema.kMultipleOf = ascii "multipleOf" := by decide +kernel
example : Schema.kDivisibleBy = ascii "divisibleBy" := by decide +kernel
example : Schema.kMinimum = ascii "minimum" := by decide +kernel
example : Schema.kMaximum = ascii "maximum" := by decide +kernel
example : Schema.kExclusiveMinimum = ascii "exclusiveMinimum" := by decide +kernel
example : Schema.kExclusiveMaximum = ascii "exclusiveMaximum" := by decide +kernel
example : Schema.kMinLength = ascii "minLength" := by decide +kernel
example : Schema.kMaxLength = ascii "maxLength" := by decide +kernel
example : Schema.kPattern = ascii "pattern" := by decide +kernel
example : Schema.kFormat = ascii "format" := by decide +kernel
example : Schema.kMinItems = ascii "minItems" := by decide +kernel
example : Schema.kMaxItems = ascii "maxItems" := by decide +kernel
example : Schema.kUniqueItems = ascii "uniqueItems" := by decide +kernel
example : Schema.kItems = ascii "items" := by decide +kernel
example : Schema.kAdditionalItems = ascii "additionalItems" := by decide +kernel
example : Schema.kMinProperties = ascii "minProperties" := by decide +kernel
example : Schema.kMaxProperties = ascii "maxProperties" := by decide +kernel
example : Schema.kRequired = ascii "required" := by decide +kernel
example : Schema.kProperties = ascii "properties" := by decide +kernel
example : Schema.kPatternProperties = ascii "patternProperties" := by decide +kernel
example : Schema.kAdditionalProperties = ascii "additionalProperties" := by decide +kernel
example : Schema.kDependencies = ascii "dependencies" := by decide +kernel
example : Schema.kAllOf = ascii "allOf" := by decide +kernel
example : Schema.kAnyOf = ascii "anyOf" := by decide +kernel
example : Schema.kOneOf = ascii "oneOf" := by decide +kernel
example : Schema.kNot = ascii "not" := by decide +kernel
example : Schema.kDefault = ascii "default" := by decide +kernel
example : Schema.kSchema = ascii "$schema" := by decide +kernel
example : Schema.wArray = ascii "array" := by decide +kernel
example : Schema.wBoolean = ascii "boolean" := by decide +kernel
example : Schema.wInteger = ascii "integer" := by decide +kernel
example : Schema.wNull = ascii "null" := by decide +kernel
example : Schema.wNumber = ascii "number" := by decide +kernel
example : Schema.wObject = ascii "object" := by decide +kernel
example : Schema.wString = ascii "string" := by decide +kernel
example : Schema.wRegex = ascii "regex" := by decide +kernel
example : Schema.wDateTime = ascii "date-time" := by decide +kernel
example : Schema.wDate = ascii "date" := by decide +kernel
example : Schema.wTime = ascii "time" := by decide +kernel
example : Schema.reDateTime = ascii "^[0-9][0-9][0-9][0-9](-[0-1][0-9](-[0-3][0-9](T[0-9][0-9](:[0-9][0-9](:[0-9][0-9])?)?)?)?)?Z?$" := by decide +kernel
example : Schema.reDate = ascii "^[0-9][0-9][0-9][0-9]-[0-1][0-9]-[0-3][0-9]$" := by decide +kernel
example : Schema.reTime = ascii "^[0-2][0-9]:[0-5][0-9]:[0-5][0-9]$" := by decide +kernel
example : Guess.octMark = ascii "0o" := by decide +kernel
example : Guess.hexMark = ascii "0x" := by decide +kernel
example : Conv.kPretty = ascii "pretty" := by decide +kernel
example : Conv.kStrict = ascii "strict" := by decide +kernel
example : Conv.kIndent = ascii "indent" := by decide +kernel
example : Conv.kPrecision = ascii "precision" := by decide +kernel
example : Conv.kScalarStyle = ascii "scalar_style" := by decide +kernel
example : Conv.kMapStyle = ascii "map_style" := by decide +kernel
example : Conv.kListStyle = ascii "list_style" := by decide +kernel
example : Conv.kBegin = ascii "implicit_document_begin" := by decide +kernel
example : Conv.kEnd = ascii "implicit_document_end" := by decide +kernel
example : Conv.kWidth = ascii "width" := by decide +kernel
example : Conv.kReal = ascii "real" := by decide +kernel
example : Conv.kImag = ascii "imag" := by decide +kernel
example : Tool.kSparams = ascii "sparams" := by decide +kernel
example : Tool.vSchemaPath = ascii "schema_path" := by decide +kernel
example : Tool.vSchemaPathKey = ascii "schema-path" := by decide +kernel
example : Tool.vSchemas = ascii "schemas" := by decide +kernel
example : Tool.vSchema = ascii "schema" := by decide +kernel
example : Tool.vPath = ascii "path" := by decide +kernel
example : Tool.vSet = ascii "set" := by decide +kernel
example : Tool.vSetFile = ascii "set-file" := by decide +kernel
example : Tool.vList = ascii "list" := by decide +kernel
example : Tool.vLen = ascii "len" := by decide +kernel
example : Tool.vLength = ascii "length" := by decide +kernel
example : Tool.vOutput = ascii "output" := by decide +kernel
example : Tool.vOut = ascii "out" := by decide +kernel
example : Tool.vGuessIn = ascii "guess-in" := by decide +kernel
example : Tool.vGuess = ascii "guess" := by decide +kernel
example : Tool.vJsonIn = ascii "json-in" := by decide +kernel
example : Tool.vYamlIn = ascii "yaml-in" := by decide +kernel
example : Tool.vTypeIn = ascii "type-in" := by decide +kernel
example : Tool.vPlistIn = ascii "plist-in" := by decide +kernel
example : Tool.vXmlIn = ascii "xml-in" := by decide +kernel
example : Tool.vBundlehdrIn = ascii "bundlehdr-in" := by decide +kernel
example : Tool.vPayloadIn = ascii "payload-in" := by decide +kernel
example : Tool.vJson = ascii "json" := by decide +kernel
example : Tool.vYaml = ascii "yaml" := by decide +kernel
example : Tool.vType = ascii "type" := by decide +kernel
example : Tool.vPlist = ascii "plist" := by decide +kernel
example : Tool.vXml = ascii "xml" := by decide +kernel
example : Tool.vBundlehdr = ascii "bundlehdr" := by decide +kernel
example : Tool.vPayload = ascii "payload" := by decide +kernel
example : Tool.vFormat = ascii "format" := by decide +kernel
example : Tool.vSparamsPretty = ascii "sparams/pretty" := by decide +kernel
example : Tool.vPretty = ascii "pretty" := by decide +kernel
example : Tool.vSparamsIndent = ascii "sparams/indent" := by decide +kernel
example : Tool.vIndent = ascii "indent" := by decide +kernel
example : Tool.vSparamsPrecision = ascii "sparams/precision" := by decide +kernel
example : Tool.vPrecision = ascii "precision" := by decide +kernel
example : Tool.vSparamsWidth = ascii "sparams/width" := by decide +kernel
example : Tool.vWidth = ascii "width" := by decide +kernel
example : Tool.vAny = ascii "any" := by decide +kernel
example : Tool.vPlain = ascii "plain" := by decide +kernel
example : Tool.vSingleQuoted = ascii "single quoted" := by decide +kernel
example : Tool.vDoubleQuoted = ascii "double quoted" := by decide +kernel
example : Tool.vFolded = ascii "folded" := by decide +kernel
example : Tool.vSparamsScalarStyle = ascii "sparams/scalar_style" := by decide +kernel
example : Tool.vScalarStyle = ascii "scalar-style" := by decide +kernel
example : Tool.vBlock = ascii "block" := by decide +kernel
example : Tool.vFlow = ascii "flow" := by decide +kernel
example : Tool.vSparamsMapStyle = ascii "sparams/map_style" := by decide +kernel
example : Tool.vMapStyle = ascii "map-style" := by decide +kernel
example : Tool.vSparamsListStyle = ascii "sparams/list_style" := by decide +kernel
example : Tool.vListStyle = ascii "list-style" := by decide +kernel
example : Tool.vSparamsImplicitDocumentBegin = ascii "sparams/implicit_document_begin" := by decide +kernel
example : Tool.vImplicitDocumentBegin = ascii "implicit-document-begin" := by decide +kernel
example : Tool.vSparamsImplicitDocumentEnd = ascii "sparams/implicit_document_end" := by decide +kernel
example : Tool.vImplicitDocumentEnd = ascii "implicit-document-end" := by decide +kernel
example : Tool.vExtensionFlatten = ascii "extension/flatten" := by decide +kernel
example : Tool.vFlattenPath = ascii "flatten-path" := by decide +kernel
example : Tool.vExtensionExpand = ascii "extension/expand" := by decide +kernel
example : Tool.vExpandPath = ascii "expand-path" := by decide +kernel
example : Tool.vExtensionFormat = ascii "extension-format" := by decide +kernel
example : Tool.vExtensionParamsNoSimpleLists = ascii "extension/params/noSimpleLists" := by decide +kernel
example : Tool.vNoSimpleLists = ascii "no-simple-lists" := by decide +kernel
example : Tool.vExtensionParamsPathPrefix = ascii "extension/params/pathPrefix" := by decide +kernel
example : Tool.vPathPrefix = ascii "path-prefix" := by decide +kernel
example : Tool.vExtensionParamsPathDelimiter = ascii "extension/params/pathDelimiter" := by decide +kernel
example : Tool.vPathDelimiter = ascii "path-delimiter" := by decide +kernel
example : Tool.vExtensionParamsIndexPrefix = ascii "extension/params/indexPrefix" := by decide +kernel
example : Tool.vIndexPrefix = ascii "index-prefix" := by decide +kernel
example : Tool.vExtensionParamsIndexSuffix = ascii "extension/params/indexSuffix" := by decide +kernel
example : Tool.vIndexSuffix = ascii "index-suffix" := by decide +kernel
example : Tool.vExtensionParamsListDelimiter = ascii "extension/params/listDelimiter" := by decide +kernel
example : Tool.vListDelimiter = ascii "list-delimiter" := by decide +kernel
example : Tool.vInput = ascii "input" := by decide +kernel

example : Schema.tValidation = ascii "validation error: " := by decide +kernel
example : Schema.tDataPath = ascii "data path: " := by decide +kernel
example : Schema.tSchemaPath = ascii "schema path: " := by decide +kernel
example : Schema.tSubErrors = ascii "sub errors:" := by decide +kernel
example : Schema.tSchema = ascii "schema error: " := by decide +kernel

end Verif
