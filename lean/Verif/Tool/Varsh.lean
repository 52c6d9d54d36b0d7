import Verif.Args.Desc
/-!
# varsh: the parser of its command line (src/varsh.cc 101-193)

Simplified: the texts shown in the help are left out; they matter for nothing else.  `ENABLE_YAML` and `ENABLE_XML`
are the parameters `yaml` and `xml`.  Short options are numbered by their character, the others from 257 on in the
order they are registered (see `Verif.Args.Register`); a setter is called on the entry registered just before it.
-/
namespace Verif.Tool
open Verif Verif.Args

/-! ## Names -/

/-- "schema_path" (src/varsh.cc). -/
def vSchemaPath : Bytes := [115, 99, 104, 101, 109, 97, 95, 112, 97, 116, 104]
/-- "schema-path" (src/varsh.cc). -/
def vSchemaPathKey : Bytes := [115, 99, 104, 101, 109, 97, 45, 112, 97, 116, 104]
/-- "schemas" (src/varsh.cc). -/
def vSchemas : Bytes := [115, 99, 104, 101, 109, 97, 115]
/-- "schema" (src/varsh.cc). -/
def vSchema : Bytes := [115, 99, 104, 101, 109, 97]
/-- "path" (src/varsh.cc). -/
def vPath : Bytes := [112, 97, 116, 104]
/-- "set" (src/varsh.cc). -/
def vSet : Bytes := [115, 101, 116]
/-- "set-file" (src/varsh.cc). -/
def vSetFile : Bytes := [115, 101, 116, 45, 102, 105, 108, 101]
/-- "list" (src/varsh.cc). -/
def vList : Bytes := [108, 105, 115, 116]
/-- "len" (src/varsh.cc). -/
def vLen : Bytes := [108, 101, 110]
/-- "length" (src/varsh.cc). -/
def vLength : Bytes := [108, 101, 110, 103, 116, 104]
/-- "output" (src/varsh.cc). -/
def vOutput : Bytes := [111, 117, 116, 112, 117, 116]
/-- "out" (src/varsh.cc). -/
def vOut : Bytes := [111, 117, 116]
/-- "guess-in" (src/varsh.cc). -/
def vGuessIn : Bytes := [103, 117, 101, 115, 115, 45, 105, 110]
/-- "guess" (src/varsh.cc). -/
def vGuess : Bytes := [103, 117, 101, 115, 115]
/-- "json-in" (src/varsh.cc). -/
def vJsonIn : Bytes := [106, 115, 111, 110, 45, 105, 110]
/-- "yaml-in" (src/varsh.cc). -/
def vYamlIn : Bytes := [121, 97, 109, 108, 45, 105, 110]
/-- "type-in" (src/varsh.cc). -/
def vTypeIn : Bytes := [116, 121, 112, 101, 45, 105, 110]
/-- "plist-in" (src/varsh.cc). -/
def vPlistIn : Bytes := [112, 108, 105, 115, 116, 45, 105, 110]
/-- "xml-in" (src/varsh.cc). -/
def vXmlIn : Bytes := [120, 109, 108, 45, 105, 110]
/-- "bundlehdr-in" (src/varsh.cc). -/
def vBundlehdrIn : Bytes := [98, 117, 110, 100, 108, 101, 104, 100, 114, 45, 105, 110]
/-- "payload-in" (src/varsh.cc). -/
def vPayloadIn : Bytes := [112, 97, 121, 108, 111, 97, 100, 45, 105, 110]
/-- "json" (src/varsh.cc). -/
def vJson : Bytes := [106, 115, 111, 110]
/-- "yaml" (src/varsh.cc). -/
def vYaml : Bytes := [121, 97, 109, 108]
/-- "type" (src/varsh.cc). -/
def vType : Bytes := [116, 121, 112, 101]
/-- "plist" (src/varsh.cc). -/
def vPlist : Bytes := [112, 108, 105, 115, 116]
/-- "xml" (src/varsh.cc). -/
def vXml : Bytes := [120, 109, 108]
/-- "bundlehdr" (src/varsh.cc). -/
def vBundlehdr : Bytes := [98, 117, 110, 100, 108, 101, 104, 100, 114]
/-- "payload" (src/varsh.cc). -/
def vPayload : Bytes := [112, 97, 121, 108, 111, 97, 100]
/-- "format" (src/varsh.cc). -/
def vFormat : Bytes := [102, 111, 114, 109, 97, 116]
/-- "sparams/pretty" (src/varsh.cc). -/
def vSparamsPretty : Bytes := [115, 112, 97, 114, 97, 109, 115, 47, 112, 114, 101, 116, 116, 121]
/-- "pretty" (src/varsh.cc). -/
def vPretty : Bytes := [112, 114, 101, 116, 116, 121]
/-- "sparams/indent" (src/varsh.cc). -/
def vSparamsIndent : Bytes := [115, 112, 97, 114, 97, 109, 115, 47, 105, 110, 100, 101, 110, 116]
/-- "indent" (src/varsh.cc). -/
def vIndent : Bytes := [105, 110, 100, 101, 110, 116]
/-- "sparams/precision" (src/varsh.cc). -/
def vSparamsPrecision : Bytes := [115, 112, 97, 114, 97, 109, 115, 47, 112, 114, 101, 99, 105, 115, 105, 111, 110]
/-- "precision" (src/varsh.cc). -/
def vPrecision : Bytes := [112, 114, 101, 99, 105, 115, 105, 111, 110]
/-- "sparams/width" (src/varsh.cc). -/
def vSparamsWidth : Bytes := [115, 112, 97, 114, 97, 109, 115, 47, 119, 105, 100, 116, 104]
/-- "width" (src/varsh.cc). -/
def vWidth : Bytes := [119, 105, 100, 116, 104]
/-- "any" (src/varsh.cc). -/
def vAny : Bytes := [97, 110, 121]
/-- "plain" (src/varsh.cc). -/
def vPlain : Bytes := [112, 108, 97, 105, 110]
/-- "single quoted" (src/varsh.cc). -/
def vSingleQuoted : Bytes := [115, 105, 110, 103, 108, 101, 32, 113, 117, 111, 116, 101, 100]
/-- "double quoted" (src/varsh.cc). -/
def vDoubleQuoted : Bytes := [100, 111, 117, 98, 108, 101, 32, 113, 117, 111, 116, 101, 100]
/-- "folded" (src/varsh.cc). -/
def vFolded : Bytes := [102, 111, 108, 100, 101, 100]
/-- "sparams/scalar_style" (src/varsh.cc). -/
def vSparamsScalarStyle : Bytes := [115, 112, 97, 114, 97, 109, 115, 47, 115, 99, 97, 108, 97, 114, 95, 115, 116, 121, 108, 101]
/-- "scalar-style" (src/varsh.cc). -/
def vScalarStyle : Bytes := [115, 99, 97, 108, 97, 114, 45, 115, 116, 121, 108, 101]
/-- "block" (src/varsh.cc). -/
def vBlock : Bytes := [98, 108, 111, 99, 107]
/-- "flow" (src/varsh.cc). -/
def vFlow : Bytes := [102, 108, 111, 119]
/-- "sparams/map_style" (src/varsh.cc). -/
def vSparamsMapStyle : Bytes := [115, 112, 97, 114, 97, 109, 115, 47, 109, 97, 112, 95, 115, 116, 121, 108, 101]
/-- "map-style" (src/varsh.cc). -/
def vMapStyle : Bytes := [109, 97, 112, 45, 115, 116, 121, 108, 101]
/-- "sparams/list_style" (src/varsh.cc). -/
def vSparamsListStyle : Bytes := [115, 112, 97, 114, 97, 109, 115, 47, 108, 105, 115, 116, 95, 115, 116, 121, 108, 101]
/-- "list-style" (src/varsh.cc). -/
def vListStyle : Bytes := [108, 105, 115, 116, 45, 115, 116, 121, 108, 101]
/-- "sparams/implicit_document_begin" (src/varsh.cc). -/
def vSparamsImplicitDocumentBegin : Bytes := [115, 112, 97, 114, 97, 109, 115, 47, 105, 109, 112, 108, 105, 99, 105, 116, 95, 100, 111, 99, 117, 109, 101, 110, 116, 95, 98, 101, 103, 105, 110]
/-- "implicit-document-begin" (src/varsh.cc). -/
def vImplicitDocumentBegin : Bytes := [105, 109, 112, 108, 105, 99, 105, 116, 45, 100, 111, 99, 117, 109, 101, 110, 116, 45, 98, 101, 103, 105, 110]
/-- "sparams/implicit_document_end" (src/varsh.cc). -/
def vSparamsImplicitDocumentEnd : Bytes := [115, 112, 97, 114, 97, 109, 115, 47, 105, 109, 112, 108, 105, 99, 105, 116, 95, 100, 111, 99, 117, 109, 101, 110, 116, 95, 101, 110, 100]
/-- "implicit-document-end" (src/varsh.cc). -/
def vImplicitDocumentEnd : Bytes := [105, 109, 112, 108, 105, 99, 105, 116, 45, 100, 111, 99, 117, 109, 101, 110, 116, 45, 101, 110, 100]
/-- "extension/flatten" (src/varsh.cc). -/
def vExtensionFlatten : Bytes := [101, 120, 116, 101, 110, 115, 105, 111, 110, 47, 102, 108, 97, 116, 116, 101, 110]
/-- "flatten-path" (src/varsh.cc). -/
def vFlattenPath : Bytes := [102, 108, 97, 116, 116, 101, 110, 45, 112, 97, 116, 104]
/-- "extension/expand" (src/varsh.cc). -/
def vExtensionExpand : Bytes := [101, 120, 116, 101, 110, 115, 105, 111, 110, 47, 101, 120, 112, 97, 110, 100]
/-- "expand-path" (src/varsh.cc). -/
def vExpandPath : Bytes := [101, 120, 112, 97, 110, 100, 45, 112, 97, 116, 104]
/-- "extension-format" (src/varsh.cc). -/
def vExtensionFormat : Bytes := [101, 120, 116, 101, 110, 115, 105, 111, 110, 45, 102, 111, 114, 109, 97, 116]
/-- "extension/params/noSimpleLists" (src/varsh.cc). -/
def vExtensionParamsNoSimpleLists : Bytes := [101, 120, 116, 101, 110, 115, 105, 111, 110, 47, 112, 97, 114, 97, 109, 115, 47, 110, 111, 83, 105, 109, 112, 108, 101, 76, 105, 115, 116, 115]
/-- "no-simple-lists" (src/varsh.cc). -/
def vNoSimpleLists : Bytes := [110, 111, 45, 115, 105, 109, 112, 108, 101, 45, 108, 105, 115, 116, 115]
/-- "extension/params/pathPrefix" (src/varsh.cc). -/
def vExtensionParamsPathPrefix : Bytes := [101, 120, 116, 101, 110, 115, 105, 111, 110, 47, 112, 97, 114, 97, 109, 115, 47, 112, 97, 116, 104, 80, 114, 101, 102, 105, 120]
/-- "path-prefix" (src/varsh.cc). -/
def vPathPrefix : Bytes := [112, 97, 116, 104, 45, 112, 114, 101, 102, 105, 120]
/-- "extension/params/pathDelimiter" (src/varsh.cc). -/
def vExtensionParamsPathDelimiter : Bytes := [101, 120, 116, 101, 110, 115, 105, 111, 110, 47, 112, 97, 114, 97, 109, 115, 47, 112, 97, 116, 104, 68, 101, 108, 105, 109, 105, 116, 101, 114]
/-- "path-delimiter" (src/varsh.cc). -/
def vPathDelimiter : Bytes := [112, 97, 116, 104, 45, 100, 101, 108, 105, 109, 105, 116, 101, 114]
/-- "extension/params/indexPrefix" (src/varsh.cc). -/
def vExtensionParamsIndexPrefix : Bytes := [101, 120, 116, 101, 110, 115, 105, 111, 110, 47, 112, 97, 114, 97, 109, 115, 47, 105, 110, 100, 101, 120, 80, 114, 101, 102, 105, 120]
/-- "index-prefix" (src/varsh.cc). -/
def vIndexPrefix : Bytes := [105, 110, 100, 101, 120, 45, 112, 114, 101, 102, 105, 120]
/-- "extension/params/indexSuffix" (src/varsh.cc). -/
def vExtensionParamsIndexSuffix : Bytes := [101, 120, 116, 101, 110, 115, 105, 111, 110, 47, 112, 97, 114, 97, 109, 115, 47, 105, 110, 100, 101, 120, 83, 117, 102, 102, 105, 120]
/-- "index-suffix" (src/varsh.cc). -/
def vIndexSuffix : Bytes := [105, 110, 100, 101, 120, 45, 115, 117, 102, 102, 105, 120]
/-- "extension/params/listDelimiter" (src/varsh.cc). -/
def vExtensionParamsListDelimiter : Bytes := [101, 120, 116, 101, 110, 115, 105, 111, 110, 47, 112, 97, 114, 97, 109, 115, 47, 108, 105, 115, 116, 68, 101, 108, 105, 109, 105, 116, 101, 114]
/-- "list-delimiter" (src/varsh.cc). -/
def vListDelimiter : Bytes := [108, 105, 115, 116, 45, 100, 101, 108, 105, 109, 105, 116, 101, 114]
/-- "input" (src/varsh.cc). -/
def vInput : Bytes := [105, 110, 112, 117, 116]

/-! ## Calls -/

/-- (src/varsh.cc 103-118) -/
def varshGeneral : List PCall := [
  .addOption vSchemaPath 0 vSchemaPathKey [] .store, .set 257 (.action .append), .set 257 (.type .str),
  .addOption vSchemas 0 vSchema [] .store, .set 258 (.action .append), .set 258 (.type .str),
  .addOption vPath 0 vPath [] .store, .set 259 (.type .str),
  .addOption vSet 0 vSet [] .store,
  .addOption vSetFile 0 vSetFile [] .store, .set 261 (.type .str),
  .addOption vList 0 vList [] .storeTrue, .set 262 (.type .bool), .set 262 (.default (.bool false)),
  .addOption vLen 0 vLength [] .storeTrue, .set 263 (.type .bool), .set 263 (.default (.bool false)),
  .group vSet, .groupAdd vSet vSet, .groupAdd vSet vSetFile, .groupAdd vSet vList, .groupAdd vSet vLen, .groupExclusive vSet true,
  .addOption vOutput 111 vOut [] .store, .set 111 (.type .str)]

/-- (src/varsh.cc 120-122) -/
def varshIn : List PCall := [
  .addOption vGuessIn 71 vGuess [] .store, .set 71 (.type .bool), .set 71 (.action .storeTrue), .set 71 (.default (.bool true)),
  .addOption vJsonIn 74 vJsonIn [] .store, .set 74 (.type .bool), .set 74 (.action .storeTrue)]

/-- (src/varsh.cc 124) -/
def varshYamlIn : List PCall := [
  .addOption vYamlIn 89 vYamlIn [] .store, .set 89 (.type .bool), .set 89 (.action .storeTrue), .joinGroup 89 vTypeIn]

/-- (src/varsh.cc 127) -/
def varshPlistIn : List PCall := [
  .addOption vPlistIn 88 vXmlIn [] .store, .set 88 (.type .bool), .set 88 (.action .storeTrue), .joinGroup 88 vTypeIn]

/-- (src/varsh.cc 129-135) -/
def varshMid : List PCall := [
  .addOption vBundlehdrIn 66 vBundlehdrIn [] .store, .set 66 (.type .bool), .set 66 (.action .storeTrue), .joinGroup 66 vTypeIn,
  .group vTypeIn, .groupAdd vTypeIn vGuessIn, .groupAdd vTypeIn vJsonIn, .groupExclusive vTypeIn true,
  .addOption vPayloadIn 80 vPayloadIn [] .storeTrue, .set 80 (.type .bool), .set 80 (.default (.bool false)),
  .addOption vJson 106 vJson [] .store, .set 106 (.default (.bool true)), .set 106 (.type .bool), .set 106 (.action .storeTrue)]

/-- (src/varsh.cc 137) -/
def varshYaml : List PCall := [
  .addOption vYaml 121 vYaml [] .store, .set 121 (.type .bool), .set 121 (.action .storeTrue), .joinGroup 121 vType]

/-- (src/varsh.cc 140) -/
def varshPlist : List PCall := [
  .addOption vPlist 120 vXml [] .store, .set 120 (.type .bool), .set 120 (.action .storeTrue), .joinGroup 120 vType]

/-- (src/varsh.cc 142-193) -/
def varshRest : List PCall := [
  .addOption vBundlehdr 98 vBundlehdr [] .store, .set 98 (.type .bool), .set 98 (.action .storeTrue), .joinGroup 98 vType,
  .group vType, .groupAdd vType vJson, .groupExclusive vType true,
  .addOption vPayload 112 vPayload [] .storeTrue, .set 112 (.type .bool), .set 112 (.default (.bool false)),
  .group vFormat,
  .addOption vSparamsPretty 0 vPretty [] .store, .set 264 (.default (.bool true)), .set 264 (.type .bool), .joinGroup 264 vFormat,
  .addOption vSparamsIndent 0 vIndent [] .store, .set 265 (.type .int), .set 265 (.minimum (.int 0)), .joinGroup 265 vFormat,
  .addOption vSparamsPrecision 0 vPrecision [] .store, .set 266 (.type .int), .set 266 (.minimum (.int 0)), .joinGroup 266 vFormat,
  .addOption vSparamsWidth 0 vWidth [] .store, .set 267 (.type .int), .set 267 (.minimum (.int 0)), .joinGroup 267 vFormat,
  .addOption vSparamsScalarStyle 0 vScalarStyle [] .store, .set 268 (.type .str), .joinGroup 268 vFormat, .set 268 (.addChoice (.str vAny)), .set 268 (.addChoice (.str vPlain)), .set 268 (.addChoice (.str vSingleQuoted)), .set 268 (.addChoice (.str vDoubleQuoted)), .set 268 (.addChoice (.str vFolded)),
  .addOption vSparamsMapStyle 0 vMapStyle [] .store, .set 269 (.type .str), .joinGroup 269 vFormat, .set 269 (.addChoice (.str vAny)), .set 269 (.addChoice (.str vBlock)), .set 269 (.addChoice (.str vFlow)),
  .addOption vSparamsListStyle 0 vListStyle [] .store, .set 270 (.type .str), .joinGroup 270 vFormat, .set 270 (.addChoice (.str vAny)), .set 270 (.addChoice (.str vBlock)), .set 270 (.addChoice (.str vFlow)),
  .addOption vSparamsImplicitDocumentBegin 0 vImplicitDocumentBegin [] .store, .joinGroup 271 vFormat, .set 271 (.type .bool),
  .addOption vSparamsImplicitDocumentEnd 0 vImplicitDocumentEnd [] .store, .joinGroup 272 vFormat, .set 272 (.type .bool),
  .addOption vExtensionFlatten 102 vFlattenPath [] .storeTrue, .set 102 (.type .bool), .set 102 (.default (.bool false)),
  .addOption vExtensionExpand 101 vExpandPath [] .storeTrue, .set 101 (.type .bool), .set 101 (.default (.bool false)),
  .group vExtensionFormat,
  .addOption vExtensionParamsNoSimpleLists 0 vNoSimpleLists [] .store, .set 273 (.type .bool), .set 273 (.default (.bool false)), .joinGroup 273 vExtensionFormat,
  .addOption vExtensionParamsPathPrefix 0 vPathPrefix [] .store, .set 274 (.type .str), .set 274 (.default (.str [])), .joinGroup 274 vExtensionFormat, .set 274 (.maxLength 1),
  .addOption vExtensionParamsPathDelimiter 0 vPathDelimiter [] .store, .set 275 (.type .str), .set 275 (.default (.str [47])), .joinGroup 275 vExtensionFormat, .set 275 (.maxLength 1),
  .addOption vExtensionParamsIndexPrefix 0 vIndexPrefix [] .store, .set 276 (.type .str), .set 276 (.default (.str [91])), .joinGroup 276 vExtensionFormat, .set 276 (.maxLength 1),
  .addOption vExtensionParamsIndexSuffix 0 vIndexSuffix [] .store, .set 277 (.type .str), .set 277 (.default (.str [93])), .joinGroup 277 vExtensionFormat, .set 277 (.maxLength 1),
  .addOption vExtensionParamsListDelimiter 0 vListDelimiter [] .store, .set 278 (.type .str), .set 278 (.default (.str [44])), .joinGroup 278 vExtensionFormat, .set 278 (.maxLength 1),
  .addArgument vInput [], .set 279 (.action .append), .set 279 (.minArgs 0), .set 279 (.maxArgs 0)]

/-- The calls `main` makes before `Parse` (src/varsh.cc 102-193). -/
def varshCalls (yaml xml : Bool) : List PCall :=
  varshGeneral ++ varshIn ++ (if yaml then varshYamlIn else []) ++ (if xml then varshPlistIn else []) ++ varshMid ++
  (if yaml then varshYaml else []) ++ (if xml then varshPlist else []) ++ varshRest

/-- The parser; `name` is `argv[0]` (src/varsh.cc 102). -/
def varsh (w : World) (name : Bytes) (yaml xml : Bool) : Option Parser := build w (newParser name true) (varshCalls yaml xml)

end Verif.Tool
