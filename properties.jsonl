{"id": "C01", "title": "JSON text round trip", "statement": "Serialising a value whose root is a list or a map to JSON and deserialising the text gives back the same value: same nesting, same list order, same key set, same string bytes, same booleans and nulls, same integers (a non-negative integer comes back as Unsigned, a negative one as Integer), and each finite float comes back as the number its printed text denotes.", "quantifier": "every value tree of any size and depth built from null, booleans, 64-bit integers, floats, NUL-free strings and keys, lists and maps", "why_tests_cant": "the tree can be arbitrarily large and deep and strings may hold any bytes; unit tests only sample a few trees", "anchors": ["src/JSONEmitter.cc: JSONEmitterImpl", "src/JSONParser.cc: JSONParserImpl::Parse", "lib/json/JSON_parser.c: JSON_parser_char", "src/VariantParsing.cc: ParseVariant", "src/VariantEmitting.cc: operator<<"]}
{"id": "C02", "title": "Pretty printing does not change the value", "statement": "The text produced with pretty printing, whatever the indent width, parses to the same value as the compact text.", "quantifier": "every value tree and every indent width", "why_tests_cant": "whitespace is inserted at every nesting level and interacts with every parser state", "anchors": ["src/JSONEmitter.cc: CheckSeparator, EmitIndent", "lib/json/JSON_parser.c: state_transition_table"]}
{"id": "C03", "title": "JSON emitter output integrity", "statement": "The bytes handed to the output are exactly the emitted tokens in order, nothing lost, duplicated or reordered, and the emitter's fixed-size staging buffer is never overrun, even when the output accepts only part of each write.", "quantifier": "every sequence of emitter calls, every token length and every pattern of short writes that makes progress", "why_tests_cant": "the bug space is the product of token lengths, buffer fill levels and short-write schedules", "anchors": ["src/JSONEmitter.cc: EmitRaw, EmitIndent, Flush, WriteOut"]}
{"id": "C04", "title": "JSON string escaping is safe and lossless", "statement": "The text emitted for a string never contains a raw control byte (below 0x20) or an unescaped quote between its delimiters, and the JSON parser decodes it to the original bytes.", "quantifier": "every NUL-free byte string", "why_tests_cant": "all byte strings of all lengths, including bytes that look like escapes or UTF-8", "anchors": ["src/JSONEmitter.cc: EmitString", "lib/json/JSON_parser.c: parse_parse_buffer, add_escaped_char_to_parse_buffer, decode_unicode_char"]}
{"id": "C05", "title": "JSON parsing does not depend on input chunking", "statement": "The value returned, or the fact that parsing fails, is the same however the byte stream is cut into the blocks returned by the input source.", "quantifier": "every byte sequence and every way of cutting it into non-empty blocks", "why_tests_cant": "exponentially many ways to cut each input", "anchors": ["src/JSONParser.cc: JSONParserImpl::Parse", "src/ParserInput.cc: ParserStreamInput"]}
{"id": "C06", "title": "JSON documents can be concatenated", "statement": "When a serialised document is followed by arbitrary further bytes, parsing returns that document and consumes exactly its bytes, so the next parse starts at the first byte after it.", "quantifier": "every document and every following byte sequence", "why_tests_cant": "needs all documents followed by all possible suffixes", "anchors": ["src/JSONParser.cc: JSONParserImpl::Parse", "src/VariantParsing.cc: LoadAllIterator"]}
{"id": "C07", "title": "JSON tokenizer never leaves its tables", "statement": "On every byte sequence the tokenizer stays inside its character-class table, its state table, its mode stack and its text buffer: no out-of-range read, no pop of an empty stack or buffer and no failed internal assertion, whether the text is valid or not.", "quantifier": "every byte sequence, of any length", "why_tests_cant": "malformed inputs are unbounded; a fuzzer samples them", "anchors": ["lib/json/JSON_parser.c: JSON_parser_char, parse_buffer_pop_back_char, push, pop, state_transition_table"]}
{"id": "C08", "title": "JSON parser only accepts complete literals", "statement": "A document in which true, false or null is cut short is rejected.", "quantifier": "every document position and every literal prefix followed by any text", "why_tests_cant": "requires looking at all tokenizer states, not at selected malformed files", "anchors": ["lib/json/JSON_parser.c: state_transition_table rows T3, F4, N3"]}
{"id": "C09", "title": "JSON callbacks are well bracketed", "statement": "Whenever the parser reports a complete document, the events it delivered form exactly one properly nested value: every end matches its begin, every map key is followed by exactly one value.", "quantifier": "every byte sequence the parser accepts", "why_tests_cant": "all accepted inputs, with arbitrary nesting and comments", "anchors": ["lib/json/JSON_parser.c: JSON_parser_char", "src/JSONParser.cc"]}
{"id": "C10", "title": "Building a value from events reproduces it", "statement": "Feeding the parse events of a value (begin/end map, begin/end list, keys, scalars) to the value builder yields that value, with the last of several equal keys winning.", "quantifier": "every value tree; every event sequence with repeated keys", "why_tests_cant": "unbounded nesting and key repetition patterns", "anchors": ["src/VariantParsing.cc: VariantParserActions, ParseVariant"]}
{"id": "C11", "title": "Path text round trip", "statement": "Parsing the printed form of a path gives the path back.", "quantifier": "every path whose last element is not the empty key, with any bytes in keys and any 32-bit indexes", "why_tests_cant": "escape characters and delimiters can occur anywhere in keys", "anchors": ["src/Path.cc: ParsePath, PathString"]}
{"id": "C12", "title": "Reading back what was written", "statement": "After a successful SetPath(p, x), GetPath(p) returns x.", "quantifier": "every value, path and new value", "why_tests_cant": "paths and documents are unbounded and SetPath creates intermediate containers", "anchors": ["src/Variant.cc: VTable::SetPath, VTable::GetPathConst, List::SetIndex, Map::SetKey"]}
{"id": "C13", "title": "Writing a path leaves the rest alone", "statement": "SetPath(p, x) does not change the value read at any path that neither extends p nor is a prefix of p; the only other elements that appear are null padding elements of extended lists.", "quantifier": "every value, every pair of divergent paths and every new value", "why_tests_cant": "pairs of paths in unbounded documents", "anchors": ["src/Variant.cc: VTable::SetPath"]}
{"id": "C14", "title": "A failed SetPath changes nothing", "statement": "If SetPath throws, the document is unchanged.", "quantifier": "every value and path for which SetPath throws", "why_tests_cant": "requires every failing combination of document shape and path", "anchors": ["src/Variant.cc: VTable::SetPath, List::SetIndex"]}
{"id": "C15", "title": "HasPath, GetPath and GetPath with default agree", "statement": "GetPath(p, d) returns d exactly when HasPath(p) is false; when HasPath(p) is true all three see the same element and GetPath(p) does not throw; when it is false GetPath(p) throws.", "quantifier": "every value, path and default", "why_tests_cant": "all document/path combinations including type mismatches part-way", "anchors": ["src/Variant.cc: VTable::GetPathConst, Variant::HasPath, Variant::GetPath"]}
{"id": "C16", "title": "ErasePath removes only its target", "statement": "After a successful ErasePath(p): if the last element of p is a key, HasPath(p) is false; if it is the last index of a list the list is one shorter; an inner index becomes null; every divergent path reads as before; pruning (remove_empty) removes only ancestors that became empty.", "quantifier": "every value, path and remove_empty flag", "why_tests_cant": "interaction of pruning, lists and nulls over unbounded documents", "anchors": ["src/Variant.cc: VTable::ErasePath, List::EraseIndex, Map::EraseKey"]}
{"id": "C17", "title": "Only null is converted implicitly", "statement": "Writing an element, appending or writing a path turns a null into a list or map, and never changes the type of any other existing value on the way: such a write throws instead.", "quantifier": "every value and every write", "why_tests_cant": "all types at all depths", "anchors": ["src/Variant.cc: Null::SetKey, Null::SetIndex, VTable::SetKey, VTable::SetIndex"]}
{"id": "C18", "title": "Reading through references never creates elements", "statement": "Looking up missing elements with operator[] / At, however deeply chained, and reading the result leaves the document unchanged (the read throws); assigning through the same chain has the same effect as SetPath with the corresponding path.", "quantifier": "every value, every chain of lookups", "why_tests_cant": "chains of any length over any document", "anchors": ["src/Variant.cc: Proxy::GetRefKey, Proxy::GetRefIndex, ProxyResolveCreate, ProxyResolveThrow"]}
{"id": "C19", "title": "A deep copy is independent", "statement": "After w = v.Copy(), no sequence of modifications made through w changes anything observable through v, and conversely.", "quantifier": "every value, with any internal sharing, and every later sequence of modifications", "why_tests_cant": "histories of modifications over aliased object graphs are unbounded", "anchors": ["src/Variant.cc: Variant::Copy, List::Copy, Map::Copy, String::Copy"]}
{"id": "C20", "title": "Assignment shares containers and copies scalars", "statement": "After w = v where v is a list, map or string, any in-place modification through either is observed through both; after w = v for null, bool or numbers the two are independent.", "quantifier": "every value and every later modification", "why_tests_cant": "aliasing is a property of histories, not of single calls", "anchors": ["src/Variant.cc: List::Assign, Map::Assign, String::Assign, VTable::Assign"]}
{"id": "C21", "title": "Equality is an equivalence", "statement": "Comparing values with == is reflexive, symmetric and transitive on values without NaN; a deep copy is equal to its original.", "quantifier": "every triple of values", "why_tests_cant": "triples of unbounded trees mixing numeric types", "anchors": ["src/Variant.cc: Compare of every type, Numeric::Compare, List::Compare, Map::Compare"]}
{"id": "C22", "title": "Numbers of different integer types compare by value", "statement": "Comparing an Integer and an Unsigned value orders them by their mathematical value, over the whole 64-bit ranges.", "quantifier": "every pair of 64-bit signed/unsigned integers", "why_tests_cant": "2^128 pairs", "anchors": ["src/Variant.cc: Numeric::Compare"]}
{"id": "C23", "title": "Blob comparison ignores segmentation and distinguishes contents", "statement": "Comparing blobs depends only on their bytes, not on how they are cut into buffers, and two blobs with different contents do not compare equal.", "quantifier": "every pair of blobs and segmentations", "why_tests_cant": "all byte strings and all ways to segment them", "anchors": ["src/Blob.cc: Blob::Compare"]}
{"id": "C24", "title": "Blob copies are faithful and contiguous", "statement": "Copying a blob produces a blob with the same total length and the same bytes, independent of later changes to the original, and every buffer is released exactly once.", "quantifier": "every blob and segmentation", "why_tests_cant": "all segmentations", "anchors": ["src/Blob.cc: Blob::Copy, Blob::CreateCopy, Blob::GetTotalLength"]}
{"id": "C25", "title": "Base64 round trip", "statement": "Decoding the base64 text of a blob gives the blob's bytes, for every line-length setting and every segmentation of the blob into non-empty buffers.", "quantifier": "every non-empty byte string, segmentation and line length", "why_tests_cant": "all lengths modulo 3 combined with all line lengths and buffer boundaries", "anchors": ["src/Base64.cc: Base64Encode, Base64Decode"]}
{"id": "C26", "title": "Base64 buffer sizes suffice", "statement": "Encoding writes at most the number of bytes announced for the encoded size (terminator included) and decoding at most the number announced for the decoded size.", "quantifier": "every input, segmentation and line length (up to the size where 32-bit arithmetic wraps)", "why_tests_cant": "a buffer overrun may appear only at particular lengths and line lengths", "anchors": ["src/Base64.cc: Base64EncodeSize, Base64DecodeSize, Base64Encode, Base64Decode"]}
{"id": "C27", "title": "Base64 decoding is total on text", "statement": "Decoding never reads outside the input or its lookup table, whatever bytes the text contains, and ignores bytes outside the alphabet.", "quantifier": "every byte string", "why_tests_cant": "all byte strings", "anchors": ["src/Base64.cc: Base64Decode, decode_char"]}
{"id": "C28", "title": "Stream input delivers the stream", "statement": "Through any sequence of peek and release calls, the bytes seen are exactly the bytes of the underlying stream in order, none lost or repeated, and a short answer is given only at end of stream.", "quantifier": "every stream content, every sequence of request sizes and releases", "why_tests_cant": "histories of buffer growth, compaction and refill are unbounded", "anchors": ["src/ParserInput.cc: ParserStreamInput::GetPtr, Release"]}
{"id": "C29", "title": "Fixed memory output never writes outside its buffer", "statement": "Writing to a caller-supplied memory buffer never stores beyond it: a write either fits completely and is appended, or throws and stores nothing.", "quantifier": "every sequence of writes and buffer size", "why_tests_cant": "histories of writes against every buffer size, including 32-bit wrap-around", "anchors": ["src/EmitterOutput.cc: EmitterMemoryOutput::Write"]}
{"id": "C30", "title": "Boolean text conversion", "statement": "Converting a string to bool gives false exactly for (case-insensitive, surrounded by blanks) non-empty prefixes of 'no' and 'false' and runs of zeros, and true otherwise.", "quantifier": "every string", "why_tests_cant": "all strings", "anchors": ["src/ParseBool.cc: ParseBool"]}
{"id": "C31", "title": "Event recording computes container sizes", "statement": "Recording a value's events without known sizes and replaying them yields the same events in the same order, each list announced with its exact number of elements and each map with its exact number of pairs, at every nesting depth.", "quantifier": "every value tree", "why_tests_cant": "sizes at every depth of unbounded trees", "anchors": ["src/EventBuffer.h: EventBuffer::BeginMap, EndMap, Event::Update, Playback"]}
{"id": "C32", "title": "Binary emitter announces true sizes", "statement": "When the size of an outer container is unknown, the MessagePack emitter still writes every container header with its exact element count and the contents in order.", "quantifier": "every event sequence of a value tree with any mixture of known and unknown sizes", "why_tests_cant": "all mixtures at all depths", "anchors": ["src/MsgPackEmitter.cc: MsgPackEmitterImpl::BeginMap, BeginList, EndMap, EndList"]}
{"id": "C33", "title": "Recorded-event equality is an equivalence", "statement": "Two recordings compare equal exactly when they contain the same events.", "quantifier": "every pair of recordings", "why_tests_cant": "all pairs of event kinds and payloads", "anchors": ["src/EventBuffer.cc: EventBuffer::Event::operator=="]}
{"id": "C34", "title": "Schema validation always terminates", "statement": "Validation returns for every schema and data value even if schemas refer to themselves or to each other in cycles.", "quantifier": "every schema (including cyclic references), data value and reference loader", "why_tests_cant": "termination quantifies over all recursive reference graphs", "anchors": ["src/Schema.cc: SchemaValidate"]}
{"id": "C35", "title": "Schema combinators have their logical meaning", "statement": "A value satisfies allOf / anyOf / oneOf / not exactly when it satisfies all / at least one / exactly one / none of the listed subschemas.", "quantifier": "every data value and list of subschemas", "why_tests_cant": "subschemas are arbitrary", "anchors": ["src/Schema.cc: ValidateAllOf, ValidateAnyOf, ValidateOneOf, ValidateNot"]}
{"id": "C36", "title": "Schema numeric and size limits", "statement": "minimum, maximum (inclusive or exclusive), multipleOf, length, item-count and property-count limits accept exactly the values within the stated limit.", "quantifier": "every limit and every data value", "why_tests_cant": "64-bit ranges mixed with signed/unsigned representation", "anchors": ["src/Schema.cc: ValidateMinMax, ValidateMultipleOf, ValidateLength, ValidateArrayLength"]}
{"id": "C37", "title": "Schema structure keywords", "statement": "required, enum and uniqueItems accept exactly the values that have all the required keys, equal one of the enumerated values, and have no two equal items.", "quantifier": "every schema and data value", "why_tests_cant": "all pairs of items, all keys", "anchors": ["src/Schema.cc: ValidateRequired, ValidateEnum, ValidateUniqueItems"]}
{"id": "C38", "title": "JSON Pointer lookup follows RFC 6901", "statement": "Looking up the pointer built from a sequence of reference tokens (with ~ and / escaped) returns the element reached by following those tokens, and the pointer text produced by the library for a path leads back to the same element.", "quantifier": "every document and every token sequence", "why_tests_cant": "tokens may contain any characters including ~ and /", "anchors": ["src/Extensions.cc: JSONPointerLookup, JSONPointerUnescape, FormJSONPointer"]}
{"id": "C39", "title": "JSON Pointer edits are all-or-nothing", "statement": "A JSON Pointer add, remove, replace, move or copy either succeeds with the RFC 6902 effect or throws and leaves the document unchanged.", "quantifier": "every document, pointer and value", "why_tests_cant": "all failing positions in all documents", "anchors": ["src/Extensions.cc: JSONPointerOp, JSONPointerAdd, JSONPointerRemove, JSONPointerReplace, JSONPointerMove, JSONPointerCopy"]}
{"id": "C40", "title": "JSON Patch is atomic", "statement": "If any operation of a patch fails or a test does not hold, the document is left exactly as it was before the patch.", "quantifier": "every document and every sequence of patch operations with a failure at any position", "why_tests_cant": "the rollback must be right for every prefix of every patch", "anchors": ["src/Extensions.cc: JSONPatch, JSONPatchOp, JSONPatchUndo"]}
{"id": "C41", "title": "Diff then patch", "statement": "Applying JSONDiff(src, dst) to src with JSONPatch yields dst.", "quantifier": "every pair of documents", "why_tests_cant": "pairs of unbounded documents with arbitrary keys", "anchors": ["src/Extensions.cc: JSONDiff, JSONPatch, FormJSONPointer"]}
{"id": "C42", "title": "Recursive diff then update", "statement": "Updating base with the recursive difference between base and compare makes every entry of compare (other than nulls and empty maps) present with its value in the result, and changes nothing else.", "quantifier": "every pair of values", "why_tests_cant": "pairs of unbounded trees", "anchors": ["src/Extensions.cc: RDiff, RUpdate"]}
{"id": "C43", "title": "Flatten then expand", "statement": "Expanding the flattened form of a nested map gives the map back when no key contains a path metacharacter and no container is empty.", "quantifier": "every nested map", "why_tests_cant": "unbounded nesting and keys", "anchors": ["src/Extensions.cc: FlattenPathTo, ExpandPathTo"]}
{"id": "C44", "title": "Payload alignment", "statement": "In a serialised header-plus-payload stream the payload starts at a multiple of 32 bytes and is preceded by a NUL byte, whatever the header length and however the output splits writes.", "quantifier": "every header length and every short-write schedule", "why_tests_cant": "depends on all header lengths and write schedules", "anchors": ["src/Payload.cc: SerializeWithPayload"]}
{"id": "C45", "title": "Payload round trip", "statement": "Deserialising a serialised header plus payload returns the payload bytes at the data path.", "quantifier": "every header text accepted by its format without NUL bytes, and every payload", "why_tests_cant": "payloads and headers of every length", "anchors": ["src/Payload.cc: SerializeWithPayload, DeserializeWithPayload, ProxyInput"]}
{"id": "C46", "title": "Relative URI resolution removes dot segments", "statement": "Resolving references never leaves '.' or inner '..' segments in the path and is stable when applied again.", "quantifier": "every path", "why_tests_cant": "all segment sequences", "anchors": ["src/SchemaLoader.cc: RemoveDotSegments, ResolveURI"]}
{"id": "C47", "title": "Percent decoding", "statement": "Percent-decoding a URI fragment inverts percent-encoding and never reads outside the string.", "quantifier": "every byte string", "why_tests_cant": "all byte strings", "anchors": ["src/SchemaLoader.cc: UnescapeURI"]}
{"id": "C48", "title": "Command-line options never collide", "statement": "After any sequence of option and argument registrations (failed ones included) no two registered entries share a result path, a long option or a short option.", "quantifier": "every sequence of registrations", "why_tests_cant": "histories of registrations, with and without conflict resolution", "anchors": ["src/ArgParse.cc: ArgParseImpl::AddOption, AddArgument, CheckExisting"]}
{"id": "C49", "title": "Integer arithmetic", "statement": "Adding, subtracting, multiplying, dividing and taking remainders of integer values gives the mathematically exact result whenever it is representable in the result type, the result type being Unsigned as soon as one operand is Unsigned.", "quantifier": "every pair of 64-bit operands and every operation", "why_tests_cant": "2^128 operand pairs per operation", "anchors": ["src/Variant.cc: NumericUpcast, NumericOperation"]}
{"id": "C50", "title": "Merge overrides key by key", "statement": "After a.Merge(b) every key of b maps to b's value, every other key of a keeps its value.", "quantifier": "every pair of maps", "why_tests_cant": "all pairs of maps", "anchors": ["src/Variant.cc: Variant::Merge"]}
{"id": "C51", "title": "Text before a JSON document is not absorbed", "statement": "Parsing a text whose first byte outside blanks and comments is not an opening bracket fails; in particular the value returned never depends on bytes before the opening bracket.", "quantifier": "every byte string", "why_tests_cant": "all byte strings; the parser skips rejected bytes before the first bracket", "anchors": ["src/JSONParser.cc: JSONParser::Run", "src/JSON_parser.c: JSON_parser_char, parse_parse_buffer"]}
{"id": "C52", "title": "Ordering of values is consistent", "statement": "For any two values exactly one of <, == and > holds, exchanging the operands reverses it, and < is transitive.", "quantifier": "every pair and triple of values without NaN", "why_tests_cant": "all pairs of nested values", "anchors": ["src/Variant.cc: Compare of every type", "include/Variant/Variant.h: operator<, operator>"]}
{"id": "C53", "title": "MessagePack round trip", "statement": "Writing a value in MessagePack and reading it back gives an equal value: the same structure, keys, strings, numbers and blob bytes (a non-negative Integer may come back as Unsigned).", "quantifier": "every value whose strings have no NUL and whose nesting the library's reader accepts", "why_tests_cant": "all value trees", "anchors": ["src/MsgPackEmitter.cc", "src/MsgPackParser.cc", "src/VariantEmitting.cc: operator<<", "src/VariantParsing.cc"]}
{"id": "C54", "title": "Type and structural keywords", "statement": "A schema accepts a value exactly when every keyword in it does. In particular a type name (or list of type names) is satisfied exactly by the values of that kind: integer by every Integer or Unsigned and by a Float without fraction, number by every number, and so on; properties, patternProperties, additionalProperties, items, additionalItems, dependencies, pattern and $ref each have their own independently stated meaning.", "quantifier": "every schema and data value whose evaluation stays within the recursion limit", "why_tests_cant": "schemas and data are unbounded trees; keywords interact (additionalProperties looks at properties and patternProperties)", "anchors": ["src/Schema.cc: ValidateType, ValidateProperties, ValidateItems, ValidateDependencies, ValidateSchema"]}
{"id": "C55", "title": "Guessing the type of a scalar", "statement": "Text without a NUL becomes a string, kept as it is, exactly when it is not, up to blanks around it, one of the words for null, true, false, the infinities and not-a-number, a decimal integer, an octal (0o) or hexadecimal (0x) number, or a decimal number with fraction or exponent. Null and the truth values come from exactly their words. Integers come back with their value.", "quantifier": "every text; every state of the C error number before the call", "why_tests_cant": "texts are unbounded and the recognition is one long regular expression with eleven alternatives", "anchors": ["src/GuessScalar.cc: GuessScalar"]}
{"id": "C56", "title": "Required options and exclusive groups", "statement": "Whenever parsing a command line returns a result, every required option and argument has a value in it, at most one member of every mutually exclusive group has one, and some member of every required group has one.", "quantifier": "every sequence of registrations, every command line, environment and set of configuration files", "why_tests_cant": "registrations, command lines and nested configuration files are unbounded; the checks come after several passes over the entries", "anchors": ["src/ArgParse.cc: ArgParse::Parse, FinalizeOptions, FinalizeGroups"]}
{"id": "C57", "title": "Values meet their requirements", "statement": "Whenever parsing a command line returns a result, the value of every option is its default or lies within the requirements set on the option: length, pattern, minimum, maximum and the list of choices, element by element for an appending option.", "quantifier": "every sequence of registrations, every command line, environment and set of configuration files", "why_tests_cant": "requirements are checked on each way a value can come in; a way that misses the check is not seen by tests of the others", "anchors": ["src/ArgParse.cc: CheckRequirements, HandleOption, HandleConfig, InitializeOptions, FinalizeOptions"]}
{"id": "C58", "title": "Precedence of the sources of an option", "statement": "The value of an option is what its mentions make of it in order: first the environment, then the command line from left to right. For a storing option the last word wins, an appending option has all words in order, a counting option the number of mentions. A configuration file counts at the place where it is named. A default is used exactly when nothing else was said.", "quantifier": "every sequence of registrations, command line and environment", "why_tests_cant": "all interleavings of the sources", "anchors": ["src/ArgParse.cc: ArgParse::Parse, HandleOption, HandleConfig, InitializeOptions, FinalizeOptions"]}
{"id": "C59", "title": "Positional words", "statement": "Whenever parsing returns a result, every word that is not an option or the value of one went to exactly one argument, in order, each argument taking as many as it can.", "quantifier": "every sequence of registrations and command line", "why_tests_cant": "all numbers of arguments, limits and words", "anchors": ["src/ArgParse.cc: ArgParse::Parse"]}
{"id": "C60", "title": "Result of parsing a command line", "statement": "The result has the value of every entry that has one at the path of the entry, and nothing else.", "quantifier": "every sequence of registrations and command line", "why_tests_cant": "paths may be nested and share prefixes", "anchors": ["src/ArgParse.cc: FormResult, FinalizeOptions"]}
{"id": "C61", "title": "Typed words", "statement": "A word given to a typed option means its value in that type: an integer word its integer exactly, a string word itself, a boolean word its truth value, and a word that is not a text of the type is refused.", "quantifier": "every word and every state of the C error number", "why_tests_cant": "texts and digit strings are unbounded; limits at 2^63 and 2^64", "anchors": ["src/ArgParse.cc: ParseArg"]}
{"id": "C62", "title": "Registering schemas", "statement": "Adding a schema at a URI, or looking one up, leaves every schema the loader knew before as it was. Adding a document at a URI makes known exactly that URI and those of the ids found inside it that continue the URI with a fragment or query (or lie below it when it ends in a slash): a document cannot define schemas for foreign URIs.", "quantifier": "every loader state, URI and schema document; every sequence of files and network answers", "why_tests_cant": "schema documents are unbounded trees with nested ids", "anchors": ["src/SchemaLoader.cc: AddSchema, SearchForTrustedSchemas, GetSchema, AdvSchemaLoader::HandleMissing"]}
{"id": "C63", "title": "Normalising a schema", "statement": "When a schema is added, every $ref and id text in it is replaced by itself resolved against the base URI in force at its place (the nearest id around it); the contents of enum and everything else stay as they are.", "quantifier": "every URI and schema document", "why_tests_cant": "schema documents are unbounded trees; base URIs nest", "anchors": ["src/SchemaLoader.cc: NormSchema"]}
{"id": "C64", "title": "References lead to what they name", "statement": "Looking up document#fragment gives the part of the document the fragment (a percent-encoded JSON pointer) points at, from the first loader in the chain of bases that knows the document; a document nobody knows or can supply throws. A schema given to a validation can refer to its own parts.", "quantifier": "every chain of loaders, document, pointer and percent encoding of it", "why_tests_cant": "all documents, pointers and encodings", "anchors": ["src/SchemaLoader.cc: GetSchema, UnescapeURI", "src/Schema.cc: SchemaValidate", "src/Extensions.cc: JSONPointerLookup"]}
{"id": "C65", "title": "Where missing schemas come from", "statement": "A missing document with a path-like URI or the scheme file is read from the file system only, one with another scheme from the network only; a relative one comes from the first search path where it can be read.", "quantifier": "every URI, list of search paths, file system and network", "why_tests_cant": "all URIs and all answers of the outside world", "anchors": ["src/SchemaLoader.cc: AdvSchemaLoader::HandleMissing, LoadFromFile, LoadFromCurl"]}
{"id": "C66", "title": "Filling in defaults keeps the document", "statement": "AddSchemaDefaults never changes or removes a value that is in the document, other than a null: scalars stay the same, lists stay lists and maps stay maps, whether the call ends normally or with an exception. A null stays null or is replaced by a default for its own place. The call fails only because of the schema, never because of the document.", "quantifier": "every schema, document, loader and outcome", "why_tests_cant": "schemas and documents are unbounded trees, and references lead anywhere in them", "anchors": ["src/Schema.cc: AddSchemaDefaults, AddSchemaDefaultsImpl, AddSchemaListDefaultsImpl"]}
{"id": "C67", "title": "Only defaults are filled in", "statement": "Everything AddSchemaDefaults adds to a document is a default that the schema gives for that place (or part of one), a container on the way to one, or a null before such a place in a list. A schema without defaults changes nothing.", "quantifier": "every schema, document and loader", "why_tests_cant": "schemas and documents are unbounded trees; defaults are reached through nested properties, items, combined schemas and references", "anchors": ["src/Schema.cc: AddSchemaDefaultsImpl, AddSchemaListDefaultsImpl"]}
{"id": "C68", "title": "Defaults of missing members are filled in", "statement": "After AddSchemaDefaults ended normally, a member that the schema gives a default for has a value, unless something above it stands in the way: a value that is no map, a null, or another default for a place above it. If the member was missing, it has exactly that default.", "quantifier": "every schema, document, loader and path of keys", "why_tests_cant": "defaults may be nested arbitrarily deep and come from combined schemas and references in any order", "anchors": ["src/Schema.cc: AddSchemaDefaultsImpl, AddSchemaListDefaultsImpl"]}
{"id": "C69", "title": "Filling in defaults twice", "statement": "Calling AddSchemaDefaults again with the same schema leaves the document as the first call left it.", "quantifier": "every schema, document and loader", "why_tests_cant": "all schemas and documents; what one part of a schema fills in decides what the other parts see the next time", "anchors": ["src/Schema.cc: AddSchemaDefaults"]}
{"id": "C70", "title": "Filling in defaults ends", "statement": "AddSchemaDefaults ends for every schema and document.", "quantifier": "every schema, document and loader", "why_tests_cant": "references may form cycles; nesting is unbounded", "anchors": ["src/Schema.cc: AddSchemaDefaultsImpl"]}
{"id": "C71", "title": "What a bundle header says", "statement": "Reading a bundle header never fails: every line ending with a newline that has the form 'key: value' is a member, all other lines and the version are passed over, comments are cut off, of several lines with the same key the last counts, values with bars are lists of the parts, and every part is the scalar guessed from it. No bytes at all are null.", "quantifier": "every sequence of bytes", "why_tests_cant": "headers are unbounded in length and in number of lines", "anchors": ["src/BundleHdrParser.cc: ReadLine, ScanLine, BundleHdrParserImpl::Run"]}
{"id": "C72", "title": "Bundle headers from files", "statement": "Reading a bundle header from a file or stream gives the same result as reading the same bytes from memory, whatever the size of the buffer.", "quantifier": "every sequence of bytes and every buffer size", "why_tests_cant": "lines may cross the buffer anywhere", "anchors": ["src/BundleHdrParser.cc: ReadLine", "src/ParserInput.cc: ParserStreamInput"]}
{"id": "C73", "title": "What is written as a bundle header", "statement": "Serializing a map of scalars and lists of scalars as a bundle header writes the version and one line for every member in key order; any other value is refused with an exception.", "quantifier": "every value", "why_tests_cant": "values are unbounded trees", "anchors": ["src/BundleHdrEmitter.cc", "src/BundleHdrEmitter.h: Value"]}
{"id": "C74", "title": "Bundle headers written and read", "statement": "A map that is written as a bundle header and read again has the same keys; integers keep their value and strings stay the same.", "quantifier": "every map of scalars and lists of scalars", "why_tests_cant": "texts may contain any of the signs that mean something in the format", "anchors": ["src/BundleHdrEmitter.cc", "src/BundleHdrParser.cc", "src/GuessScalar.cc"]}
{"id": "C75", "title": "Plain text survives a bundle header", "statement": "A map of strings and lists of strings that contain none of the signs of the format and do not look like other scalars is written as a bundle header and read back unchanged.", "quantifier": "every such map", "why_tests_cant": "maps, lists and texts are unbounded", "anchors": ["src/BundleHdrEmitter.cc", "src/BundleHdrParser.cc", "src/GuessScalar.cc"]}
{"id": "C76", "title": "Guessing XML or YAML", "statement": "With the format left open, the first byte that is not blank decides: '<' means XML, anything else YAML. The bytes looked at stay available to the parser.", "quantifier": "every input, in memory or from a file or stream with any buffer size", "why_tests_cant": "any number of blanks may come first and cross the buffer anywhere", "anchors": ["src/GuessFormat.cc: GuessFormat", "src/ParserInput.cc: ParserStreamInput"]}
{"id": "C77", "title": "XML property lists are read as what they say", "statement": "Reading an XML property list gives the value its elements say: dict, array, string, integer, real, data, true, false and null, names in upper or lower case, unknown elements as strings, the last value of a plist element, nothing behind the root element read.", "quantifier": "every document the XML library can deliver that follows the format, with any comments and blanks in it", "why_tests_cant": "documents nest without bound and comments, blanks and empty elements may stand anywhere", "anchors": ["src/XMLPLISTParser.cc: XMLPLISTParserImpl::Run, BeginElement, ProcessText, EndElement, StringToNode", "src/VariantParsing.cc: ParseVariant"]}
{"id": "C78", "title": "XML values without a plist element", "statement": "A document whose root is a single scalar, rather than a plist, dict or array, is read as that scalar.", "quantifier": "every scalar element as a root", "why_tests_cant": "ranges over all texts and ways to write the element", "anchors": ["src/XMLPLISTParser.cc: XMLPLISTParserImpl::Run", "src/VariantParsing.cc: VariantBaseParserActions::Finish"]}
{"id": "C79", "title": "Reading any XML is safe and ignores comments", "statement": "Whatever well-formed or broken XML is read, the result is a value or an exception, and comments, processing instructions and blanks between elements never change it.", "quantifier": "every sequence of nodes the XML library may deliver", "why_tests_cant": "the sequences are unbounded and arbitrary", "anchors": ["src/XMLPLISTParser.cc: XMLPLISTParserImpl::Run", "src/Base64.cc: Base64Decode"]}
{"id": "C80", "title": "XML property lists are written as the value", "statement": "Writing a value writes exactly one element for every value and key in it, in order and properly nested, with the decimal text of integers and the base64 text of blobs, and a plist element around it if a document is begun.", "quantifier": "every value", "why_tests_cant": "values nest without bound", "anchors": ["src/XMLPLISTEmitter.cc: XMLPLISTEmitterImpl", "src/XMLPLISTEmitter.h: StartElement, CloseElement", "src/VariantEmitting.cc: operator<<"]}
{"id": "C81", "title": "XML property lists round trip", "statement": "A value written as an XML property list and read back is the value written.", "quantifier": "every value", "why_tests_cant": "values nest without bound and strings are arbitrary", "anchors": ["src/XMLPLISTEmitter.cc", "src/XMLPLISTParser.cc", "src/VariantEmitting.cc: SerializeXMLPLIST"]}
{"id": "C82", "title": "Integers in XML property lists", "statement": "The text of an integer element is read as the number it says, as an Integer if it fits, else as an Unsigned; a text that is no number is refused.", "quantifier": "every text of an integer element, every integer", "why_tests_cant": "ranges over all texts and all integers, past the limits of the types", "anchors": ["src/XMLPLISTParser.cc: XMLPLISTParserImpl::ProcessText"]}
{"id": "C83", "title": "YAML documents are read as what they mean", "statement": "Reading a YAML document gives the value its nodes mean: sequences in order, mappings with the last value of every key, aliases as the most recent value of their anchor, quoted scalars as strings, plain ones as the value they look like, binary ones decoded; a document that means nothing (an alias without anchor, a collection as a key) is refused.", "quantifier": "every document tree, any anchors, aliases, tags and styles in it, and whatever follows it in the stream", "why_tests_cant": "documents nest without bound and anchors may be defined and used anywhere", "anchors": ["src/YAMLParser.cc: YAMLParserImpl::Run, ParseScalar", "src/VariantParsing.cc: ParserState::Anchor, ParserState::Alias, VariantMapParserActions, VariantListParserActions, ParseVariant"]}
{"id": "C84", "title": "Reading any YAML is safe and comes to an end", "statement": "Whatever the YAML library delivers, broken or not, reading gives a value or an exception and comes to an end, also when the parser is used again after an exception.", "quantifier": "every sequence of events the YAML library may deliver", "why_tests_cant": "the sequences are unbounded and arbitrary", "anchors": ["src/YAMLParser.cc: YAMLParserImpl::Run", "src/VariantParsing.cc: ParseVariant", "src/Base64.cc: Base64Decode"]}
{"id": "C85", "title": "Iterating over the documents of an input", "statement": "An iterator over the documents of an input is a position in the sequence of its values: dereferencing gives the value at the position, advancing moves it by one and reads a document only when no copy has read it before, copies are independent, all ends are equal, and an exception while reading leaves every iterator where it was.", "quantifier": "every parser, every sequence of values it delivers, every history of advancing, copying, assigning, dereferencing and comparing any number of iterators", "why_tests_cant": "histories are unbounded and iterators share the list of what has been read", "anchors": ["include/Variant/Variant.h: LoadAllIterator", "src/VariantParsing.cc: LoadAllIterator"]}
{"id": "C86", "title": "All documents of a stream are loaded", "statement": "Iterating over the documents of an input gives exactly the values of its documents, in order, for every format with several documents; an empty input has no documents; broken input ends in an exception.", "quantifier": "every stream of documents", "why_tests_cant": "streams have any number of documents of any size", "anchors": ["include/Variant/Variant.h: DeserializeAll", "src/YAMLParser.cc: YAMLParserImpl::Run, Done", "src/VariantParsing.cc: LoadAllIterator"]}
{"id": "C87", "title": "YAML is written as the value", "statement": "Writing a value as YAML writes a stream of one document with exactly the node of the value: a scalar for every scalar and key with its text, in order and properly nested, blobs as Base64 with the binary tag; several values written in documents of their own become as many documents; a text that is not UTF-8 is refused.", "quantifier": "every value, every list of values, every configuration of the emitter", "why_tests_cant": "values nest without bound and strings are arbitrary", "anchors": ["src/YAMLEmitter.cc: YAMLEmitterImpl", "src/VariantEmitting.cc: operator<<, Serialize"]}
{"id": "C88", "title": "Whatever is called, YAML written is well formed", "statement": "Whatever calls are made on a YAML emitter, if all of them and Close return then a stream of whole documents has been written; a closed emitter refuses every further call, and closing again does nothing.", "quantifier": "every sequence of calls", "why_tests_cant": "call sequences are unbounded and arbitrary", "anchors": ["src/YAMLEmitter.cc: YAMLEmitterImpl::BeginDocument, EndDocument, Close", "src/YAMLEmitter.h: CheckClosed, CheckInDocument, CheckOutDocument"]}
{"id": "C89", "title": "YAML round trip", "statement": "Reading back the YAML written for a value, or for several values in documents of their own, gives values equal to the ones written, with strings and keys unchanged.", "quantifier": "every value, every list of values, every configuration of the emitter", "why_tests_cant": "values nest without bound and strings are arbitrary; libyaml chooses the style of each scalar", "anchors": ["src/YAMLEmitter.cc: YAMLEmitterImpl", "src/YAMLParser.cc: YAMLParserImpl::Run, ParseScalar", "src/GuessScalar.cc: GuessScalar"]}
{"id": "C90", "title": "Conversions to integer types", "statement": "Converting a value to an integer type of C++ gives the number the value says: an integer is itself, a text is the number it spells in decimal, a double is cut towards zero, a bool is 0 or 1. A value that is no number - null, a list, a map, a blob, a text that is not a whole number - throws and gives nothing, and so does a text spelling a number beyond 64 bits. A number that does not fit the type asked for is not silently changed into another.", "quantifier": "every value of every type, every integer type of 8 to 64 bits, signed or not", "why_tests_cant": "the values include every 64-bit integer, every double and every text; tests try a few of each", "anchors": ["src/Variant.cc: AsInt, AsUnsigned, AsString, AsNumber, AsLongDouble", "include/Variant/Variant.h: variant_cast", "src/VariantCast.cc: variant_cast specialisations"]}
{"id": "C91", "title": "Conversions keep what was put in", "statement": "A number made into text and converted back is the same number, a truth value too; a whole number small enough for a double converts to that double and back; a vector or map converted to a value and back is the same vector or map, element by element in order; a complex number is read from a number and from a list of two.", "quantifier": "every integer, truth value, vector and map of any length and element type", "why_tests_cant": "vectors and maps have any length; there are 2^64 integers", "anchors": ["include/Variant/VariantCast.h: variant_cast to vector, map, complex", "include/Variant/Variant.h: constructors from vector and map, AsString, AsNumber, AsDouble"]}
{"id": "C92", "title": "Parameters of emitters", "statement": "A parameter of an emitter that is set is what reading it shows, the other parameters stay as they were and names that are no parameters are ignored; setting many at once does what setting each does, and one that fails leaves the ones before it set and the others not; the parameters read off one emitter make another the same; an emitter made with parameters has them and the defaults for the rest; libxml2 is always told the indentation the parameters say; a YAML style set by name is the style used.", "quantifier": "every emitter format, every configuration, every map of parameters", "why_tests_cant": "parameters can be any values under any names in any number and order", "anchors": ["src/JSONEmitter.cc: GetParam, SetParam, JSONEmitterImpl", "src/XMLPLISTEmitter.cc: GetParam, SetParam, XMLPLISTEmitterImpl", "src/YAMLEmitter.cc: GetParam, SetParam", "src/BlobEmitter.cc", "src/Emitter.cc: GetParams, SetParams"]}
{"id": "C93", "title": "References never dangle", "statement": "Whatever a program did with variants and references before, including destroying, moving and overwriting what references refer to, an operation on variants and references does not access freed memory: a reference knows whether its target still exists.", "quantifier": "every program of declarations, assignments, references, element accesses, insertions, removals and destructions; every growth policy of std::vector", "why_tests_cant": "the histories in which a target moves, is freed or is replaced while references to it exist are unbounded, and freed memory often still looks right", "anchors": ["src/Variant.cc: RefData, EnsureRef, CheckRef, RefInit, ProxyInit, MakeRef, MakeProxy, ProxyResolveCheck, ProxyResolveThrow, ProxyResolveCreate", "include/Variant/VariantInternal.h: Data", "include/Variant/Variant.h: VariantRef"]}
{"id": "C94", "title": "What references refer to", "statement": "A resolved reference refers to the same object for ever: what is done through it is done to that object, with the same results and effects as on the object itself or through another reference to it; what is written is what all names of the object read; Exists tells whether the target exists (for an unresolved reference: whether the path leads somewhere by now); once the target is gone, every use throws and it stays gone. A reference to a variable is valid as long as the variable. Setting a new key of a map invalidates no reference; appending to a list invalidates the references to its elements when, and only when, the vector is full.", "quantifier": "every reachable state, every operation, every two names of an object, every program in between", "why_tests_cant": "aliases multiply with every operation; a difference between using a variable and using a reference may show only in one state", "anchors": ["src/Variant.cc: Ref, Proxy, VTable::Assign, SetKey, GetRefIndex, GetRefKey, Exists, Append", "include/Variant/Variant.h: VariantRef, ReassignRef, Exists"]}
{"id": "C95", "title": "Memory is freed", "statement": "At any time exactly the storage is allocated that some variable has, or contains at any depth, or that an unresolved reference keeps; when all variables are gone nothing is left.", "quantifier": "every program of the operations of C93", "why_tests_cant": "leaks and early frees depend on the whole history of sharing", "anchors": ["src/Variant.cc: VTable::Destruct, Destroy, ListStorage, MapStorage, Proxy::Destruct", "include/Variant/VariantInternal.h: Data"]}
{"id": "C96", "title": "References to what does not exist yet", "statement": "Access to an element or path that does not exist yields a reference that stands for it and changes nothing. Reading through it throws and changes nothing as long as the path leads to nothing, and otherwise reads what the path leads to then. Assigning through it creates the path, if that is possible: afterwards the path exists and leads to what was assigned, and the reference refers to it.", "quantifier": "every reachable state, every unresolved reference, every path and value", "why_tests_cant": "what is missing of a path, where it ends and what is shared there range over all states", "anchors": ["src/Variant.cc: ProxyInit, ProxyResolveCheck, ProxyResolveThrow, ProxyResolveCreate, Proxy, GetRefIndex, GetRefKey", "include/Variant/Variant.h: VariantRef, operator[], AtPath"]}
{"id": "C97", "title": "Programs over memory compute with values", "statement": "At any time a variable or reference to something that exists has exactly one value, and elements and paths of it have the values of the elements and paths of that value. Writing a scalar, text, assignment, Set, Append, Erase and Clear through it give the same result or exception, and afterwards the same value, as the operation on plain values; everything that does not share a list, map or text with what was changed keeps its value, and whoever refers to what was changed sees the change. Lists and maps are references: after assignment both names show every change of the content.", "quantifier": "every reachable state, every name, value, key, index and program before", "why_tests_cant": "sharing between variables, references and elements ranges over all graphs a program can build", "anchors": ["src/Variant.cc: VTable::Assign, Set, Append, Erase, Clear, GetRefIndex, GetRefKey", "include/Variant/Variant.h"]}
{"id": "C98", "title": "A copy has everything of its own", "statement": "Variant x = y.Copy(), where y is a variable or a reference to something that exists, makes x equal to the value of y at that moment. Nothing that existed before changes, and nothing within the copy, at any depth, existed before: whatever is later done through x or a reference into x leaves every other variable and the value that was copied as they were, and whatever is done to them leaves the copy as it was.", "quantifier": "every reachable state, every name, every value of any depth however its parts are shared, and every later operation", "why_tests_cant": "the parts of the value copied may be shared with anything else, at any depth; a test sees some of these graphs", "anchors": ["src/Variant.cc: VTable::Copy, List::Copy, Map::Copy, BlobImpl::Copy, Variant::Copy"]}
{"id": "C99", "title": "What Parse returns satisfies the parser's own schema", "statement": "For a parser whose options and arguments are stored at paths that do not lie within each other, whatever ArgParse::Parse returns is accepted by SchemaValidate with the schema that GenerateSchema of the same parser returned: required entries are there, every value has the declared type and lies within the declared limits, lists have an allowed number of elements, and of the members of a mutually exclusive group at most one is present.", "quantifier": "every parser set up through the API with any number of entries and groups at paths of any depth, every command line, environment and result", "why_tests_cant": "the options, their nesting, their limits and the words on the command line combine without bound; a test sees some", "anchors": ["src/ArgParse.cc: ArgParseOptImpl::GenerateSchema, ArgParseGroupImpl::GenerateSchema, ArgParseImpl::GenerateSchema, ArgParse::Parse", "src/Schema.cc: SchemaValidator"]}
{"id": "C100", "title": "The schema of a parser accepts exactly the documents the parser could describe", "statement": "A document validates against the schema generated by a parser if and only if: whatever it has on the way to an entry's path are maps; every required entry is present; the value of each entry that is present has the entry's type and meets its limits and choices (each element of a list for an appending entry, with an allowed number of elements; the constant; a boolean for a flag; a number that is not negative for a count); and it has at most one member of each mutually exclusive group, and exactly one if the group is required. Members the parser does not know do not matter.", "quantifier": "every parser set up through the API, every document", "why_tests_cant": "documents and parsers are unbounded; a test sees some pairs", "anchors": ["src/ArgParse.cc: ArgParseOptImpl::GenerateSchema, GenerateObjectSchema, ArgParseGroupImpl::GenerateSchema, GroupSchema", "src/Schema.cc: SchemaValidator"]}
{"id": "C101", "title": "Checking a schema against the built-in schema of schemas tells schemas from other values", "statement": "Validating any value against http://json-schema.org/draft-04/schema#, which every loader has, always comes to a result: it never throws and never has undefined behaviour, whatever other loaders there are. The value is accepted exactly if it is a schema: a map in which every keyword has a value of its kind (a type name or a list of distinct type names, numbers as limits, whole numbers from 0 as sizes, compiling regular expressions, lists of distinct texts as required members, exclusiveMinimum only with minimum ...) and in which everything that should be a schema again is one.", "quantifier": "every value, every chain of loaders, every platform's long double", "why_tests_cant": "values are unbounded in size and depth; a test checks some schemas", "anchors": ["src/json-schema-v4.cc: JSON_SCHEMA_SCHEMA_TEXT", "src/SchemaLoader.cc: SchemaStaticData, SchemaLoader::SchemaLoader, SchemaLoader::GetSchema", "src/Schema.cc: SchemaValidate"]}
{"id": "C102", "title": "A schema that passes the check can be used to validate anything", "statement": "If a value is accepted by the built-in schema of schemas, then validating any document with it gives a result without schema errors: only the document can be at fault. It never throws and never has undefined behaviour.", "quantifier": "every value accepted as a schema, every document, every chain of loaders", "why_tests_cant": "schemas and documents are unbounded", "anchors": ["src/json-schema-v4.cc: JSON_SCHEMA_SCHEMA_TEXT", "src/Schema.cc: SchemaValidate", "src/SchemaLoader.cc: SchemaLoader::AddSchema, NormSchema"]}
{"id": "C103", "title": "Merging a parser's description adds exactly what it describes", "statement": "ArgParse::GetDescription describes a parser's options, arguments and groups as a value; it never has undefined behaviour. Merging that value into another parser with Merge succeeds if the other has none of these key paths and names, and afterwards the description of that parser has the options of both, its own arguments followed by the merged ones, and the groups of both: a group that both have gets the members of both, and what the merged description says of it. In particular a new parser into which the description is merged is described alike.", "quantifier": "every two parsers set up through the API by any sequence of calls, including merges and calls that threw, and every order in which members of groups are listed", "why_tests_cant": "the entries, their settings, the groups and the history of both parsers are unbounded", "anchors": ["src/ArgParse.cc: ArgParseImpl::GetDescription, ArgParseImpl::Merge, ArgParseOptImpl::GetDescription, ArgParseOptImpl::Init, ArgParseGroupImpl::GetDescription, ArgParseGroupImpl::Init", "include/Variant/ArgParse.h: ArgParseOption, OptionGroup, ArgParse"]}
{"id": "C104", "title": "The description shows what was set", "statement": "After every call that sets something of an option (its title, action, type, constant, default, variable, minimum, maximum, choices, pattern, lengths, numbers of arguments, whether it is required or advanced), the value of ArgParse::GetDescription has exactly the keys that call sets changed, in that option only; minimum and maximum set the type to number and pattern and lengths set it to string if it was not set; a choice that is there is not added again. AddOption and AddArgument add one entry, at a key path not described before, with the given names and texts and the defaults, and change no other; a new argument comes last. The setters of a group change one key of that group; a group asked for is empty unless it was there; adding an entry to a group adds its key path to the members.", "quantifier": "every parser a program can build by any sequence of calls, every next call that does not throw, every order of a group's members", "why_tests_cant": "The calls can be made in any order on any earlier state; tests look at one setter at a time on a fresh option.", "anchors": ["src/ArgParse.cc: ArgParseOptionImpl::GetDescription", "src/ArgParse.cc: ArgParseOption::*", "src/ArgParse.cc: ArgParseGroup::*", "src/ArgParse.cc: ArgParse::AddOption", "src/ArgParse.cc: ArgParse::AddArgument"]}
{"id": "C105", "title": "Validate finds exactly the parsers that are not well-formed", "statement": "ArgParse::Validate returns or throws std::runtime_error, and does nothing else. It returns exactly if the description of the parser has the form the schema of descriptions documents: texts where texts belong, sizes and numbers where these belong, a title, a help text and an action for every entry, a name for every option, a key path for every argument, regular expressions as patterns, and distinct scalars as choices. If only descriptions of that form were merged, then the only things it can find are an option without a name, a pattern that is no regular expression, and choices that are none, not scalar or equal. A parser set up by calls with sensible arguments always passes.", "quantifier": "every parser a program can set up by any sequence of calls, including merges and calls that threw; every order in which members of groups are listed", "why_tests_cant": "the entries, their settings, the groups and the history of the parser are unbounded", "anchors": ["src/ArgParse.cc: ArgParse::Validate, ArgParseStatic", "src/argparse-schema.yaml", "src/Schema.cc: SchemaValidate", "include/Variant/ArgParse.h: ArgParse::Validate"]}
{"id": "C106", "title": "The help shows every option and argument once, with what is known about it", "statement": "For every parser a program can build, PrintHelp prints the title, the usage of every positional argument, the description, an entry for every argument, the entries of the options that have no group with a title or description, and then, group by group in the order of their names, the heading and the entries of the options whose first such group it is, and the epilog. Options and arguments appear in the order they were added, every argument once and every option to be shown exactly once; the advanced help shows all options, the other none marked as advanced. An entry contains the option's short and long name, every choice, its environment variable, its help text and its default as JSON. The usage of an argument allows exactly the numbers of words from minArgs to maxArgs (without end if maxArgs is 0). If choices are scalars, no default is a blob and merged descriptions have settings of the right types, the help is printed to the end without an exception.", "quantifier": "every sequence of calls that builds a parser (with caught exceptions), both kinds of help, every entry, every minArgs and maxArgs with maxArgs = 0 or minArgs <= maxArgs", "why_tests_cant": "Every combination of groups, titles, advanced marks, names and settings gives another text; tests look at a few.", "anchors": ["src/ArgParse.cc: ArgParseImpl::PrintHelp, ArgParseOptImpl::HelpLine, ArgParseOptImpl::MakeArgString"]}
{"id": "C107", "title": "Asking for the help wins over everything else on the command line", "statement": "Parse knows --help unless the program has an option of that long name (and -h unless it has one of that short name); if anything is marked as advanced it also knows --adv-help. Once a help option was read on the command line, Parse never returns and never exits with another code than 0, whatever follows: unknown options, refused values, missing or superfluous words, violated groups. What the help shows does not depend on the command line, the environment or configuration files.", "quantifier": "every parser a program can build whose help can be printed, every command line with a help option after options that were accepted, every environment and every content of configuration files", "why_tests_cant": "The rest of the command line is arbitrary: every later failure must still end in the help.", "anchors": ["src/ArgParse.cc: ArgParseImpl::Parse, ArgParseImpl::PrintHelp, ArgParseOptImpl::Handle"]}
{"id": "C108", "title": "Every spelling of an option on the command line means that option, and a line that cannot be read is never accepted", "statement": "Parse reads the words of the command line like this: --name mentions the option with that long name, or the only one whose name begins like that; --name=value and --name value give it its value, -c value and -cvalue do the same for its short name, and -abc mentions several; words that do not begin with - (and - itself) are arguments wherever they stand, or end the options if POSIXLY_CORRECT is set; after -- nothing is an option. Every line has at most one such reading. Parse does what that reading says; it returns a value for no line that has none (unknown or ambiguous names, a missing value, a value for an option that takes none). All the spellings of an option with its value are interchangeable, whatever follows.", "quantifier": "every parser a program can set up whose short options are ASCII characters other than + - : ; ? and whose long ones have no =, every list of words, every environment and every content of configuration files", "why_tests_cant": "The words of a command line are unbounded, and abbreviations depend on all other names.", "anchors": ["src/ArgParse.cc: ArgParseImpl::Parse"]}
{"id": "C109", "title": "The buffers of a blob are released once, when nothing holds the blob any more, and not before", "statement": "A program makes blobs (Blob::Create, CreateFree, CreateReferenced, CreateCopy, Blob::Copy), passes the pointers around, and puts them into and gets them out of variants in any order. At any time, the free function of a blob has not been called while a pointer or a variant still holds that blob, and once nothing holds it, it has been called exactly once for each of the buffers, in their order and with the context given; for referenced buffers nothing is called, and nothing else is ever released. Looking into a blob one holds never finds it gone. Each operation makes pointers and variants hold what it says; one that throws changes nothing. Memory allocated for a copy is freed the same way.", "quantifier": "every program of such operations on any number of pointers and variants, every choice of allocations that fail, every list of buffers and every free function", "why_tests_cant": "Histories are unbounded, and a wrong count shows only after the right sequence of sharing, assigning and failing.", "anchors": ["src/Blob.cc: Blob::Create, Blob::CreateFree, Blob::CreateReferenced, Blob::CreateCopy, Blob::Copy, Blob::~Blob", "src/Variant.cc: BlobInit, Blob::Copy, Blob::Assign, Blob::AsBlob, Blob::Size", "include/Variant/Blob.h: Blob"]}
{"id": "C110", "title": "varsh always knows one input and one output format", "statement": "Whatever is on the command line of varsh, once it has been parsed the input format and the output format each have exactly one value, so that neither variable is used without one. It is the format an option asks for; the command line is refused if two formats of the same kind are asked for. Without an option the input is guessed and the output is JSON. More generally, for any parser: in a mutually exclusive group one member of which has a default, exactly one member has a value in the result.", "quantifier": "every command line (any options in any order, any number of times, any words), every environment, and builds with and without YAML and property lists", "why_tests_cant": "The number of command lines is unbounded, and the default of one option depends on whether any other member of its group has a value and on the order in which entries are finalised; a variable without value often happens to hold a valid format in a test.", "anchors": ["src/varsh.cc main (101-201)", "src/varsh.cc Process (42-49)", "src/ArgParse.cc ArgParseOptImpl::FinalizeResult", "src/ArgParse.cc ArgParseGroupImpl::FinalizeResult"]}
{"id": "C111", "title": "varsh does what its command line asks, to every input", "statement": "For every command line varsh accepts, in whatever order and spelling the options are: each input (the files named, or the standard input) is read in the format asked for, flattened or expanded if asked, compared with every schema asked for, and then the document, the part at the path asked for, its keys or its length are written in the format and with the parameters asked for, or their defaults. If a value and a path are given, every document is written with that value at that path and otherwise as it was. At most one of putting a value in, putting a file in, listing keys and showing the length is done. Inputs after the first that fails are not looked at. A value given on the command line is put in whatever it is, and the file named is the one read (both false: a word that reads as null counts as none, so that the old value is shown; the name of a file is read as a value first, so that 007 opens 7).", "quantifier": "every command line (any words), every environment, every document, every behaviour of the readers, writers and schemas, and builds with and without YAML and property lists", "why_tests_cant": "The options interact through one configuration value in which each of thirty entries may be missing, have a default, or hold whatever its last word reads as; tests try a few combinations of options that the author thought of, with words that read as themselves.", "anchors": ["src/varsh.cc Process (42-99)", "src/varsh.cc main (101-231)", "src/ArgParse.cc ArgParse::Parse", "src/GuessScalar.cc GuessScalar"]}
{"id": "C112", "title": "Every error a validation reports says truthfully where it is", "statement": "When SchemaValidate returns a result, every validation error in it, and in the results of alternatives inside it, is there because a value of the data that the keywords lead to violates a keyword of the schema it is checked against; GetDataPath is the path from the data to that value (for additionalProperties and additionalItems to the part not allowed) and GetSchemaPath the path to the keyword, so GetPath of the data with the data path always finds the value. An error of anyOf or oneOf that nothing matches has one sub result for each alternative, in their order, none of them empty, with paths below that alternative. Every schema error names the place in the schema that has the wrong form, or a schema only reached after a hundred steps. There is at most one validation error in a result, and nothing in it exactly if the data is accepted. GetSchemaPath is a path in the schema given (false: a $ref is not on the path, so that it leads nowhere without following references; and an unknown type name outside a list is reported at type[0]).", "quantifier": "every schema, data, loader and behaviour of regular expressions, with any nesting and any combination of keywords, and every error at any level of the result", "why_tests_cant": "The paths are put together by objects on the stack in twenty places; a test compares the path of one error of one schema, while a missing or doubled element shows only for the keyword, nesting and position it belongs to.", "anchors": ["src/Schema.cc SchemaContext, AutoDataPath, AutoSchemaPath (45-111)", "src/Schema.cc ValidateNot - SchemaValidate (115-841)", "include/Variant/Schema.h ValidationError, SchemaError, SchemaResult"]}
{"id": "C113", "title": "What is printed of a validation result tells every error", "statement": "PrettyPrintMessage of a schema result, the text a user sees, has for every validation error and every schema error in it, at every depth of the results of alternatives, its lines with the message and the paths, in order, indented by its depth, and nothing else; an empty result prints nothing. If the messages and paths have no line ends, the text determines what the errors, messages, paths and depths are. It also tells which alternative an error belongs to (false: the results of alternatives run into each other), and what the errors are when keys have line ends in them (false).", "quantifier": "every result with any number of errors, messages, paths and nesting of alternatives", "why_tests_cant": "Whether two different results print the same text can not be seen from a list of expected texts; it is a claim about all pairs of results.", "anchors": ["src/Schema.cc InsertIndent, ValidationError::PrettyPrintMessage, SchemaError::PrettyPrintMessage, SchemaResult::PrettyPrintMessage (896-993)", "include/Variant/Schema.h (36-98)"]}
{"id": "C114", "title": "FillRandom records one well-formed value within the limits, and every such value can come out", "statement": "Whenever EventBuffer::FillRandom returns, it has recorded one list or map (in a document unless BEGIN_DOCUMENT is disallowed): every begin has its end, every length announced is the number of elements, fewer than ten; keys are words; nothing is nested deeper than max_level allows; infinities and NaN occur only if allowed. It never throws, and playing the buffer back makes exactly the calls for that value. Conversely every value within these limits comes out for some numbers. It returns for some numbers exactly if lists or maps are allowed and max_level leaves room for one, and otherwise never. Nothing of a disallowed kind comes out (false: keys are strings even if SCALAR_STRING is disallowed), and every kind not disallowed can (false: there are never blobs).", "quantifier": "every set of disallowed events, max_level, allow_nan, level of the buffer before, and sequence of numbers rand() returns", "why_tests_cant": "The tests that use random events rely on them to be well formed and to reach all kinds of values; what comes out for all sequences of random numbers, and what never does, can not be seen from samples.", "anchors": ["src/EventBuffer.cc EventBuffer::FillRandom, RandomEventType, GenerateRandomString, GenerateRandomBlob, BasicRandomEvent, MapRandomEvent, ListRandomEvent (137-281)", "src/EventBuffer.h EventType_t (59-80)"]}
{"id": "C115", "title": "When an output fails, what has been written is a beginning of the document, and Serialize returns only when all was taken", "statement": "Whatever an output answers to each Write (part, nothing, an exception) and whenever the process is stopped, what the output has received from the JSON emitter is a beginning of the document; when Serialize returns the output has taken the whole document, and with an output whose Flush makes safe what it has taken, the file has it. Serializing into a block of memory returns with the document if it fits and throws otherwise, never writing beyond the block, after a bounded number of calls. False of the code: that emitting comes to an end (with a stream that accepts no more bytes it loops for ever), that the file has the document when Serialize to a file returned (errors of fflush and fclose are ignored), and for MessagePack that an exception or a complete document results (short writes are ignored: bytes are lost silently, and the output can have a hole in the middle).", "quantifier": "every document (sequence of pieces), every behaviour of an output as a function of what it has received, every point at which the process stops", "why_tests_cant": "Disks become full at any byte and processes die at any call; tests have outputs that work.", "anchors": ["src/EmitterOutput.cc EmitterFileOutput, EmitterStreambufOutput, EmitterMemoryOutput (33-99)", "include/Variant/EmitterOutput.h EmitterOutput", "src/JSONEmitter.cc Flush, EmitRaw, EmitIndent (152-161, 226-240, 281-295)", "src/MsgPackEmitter.cc MsgPackPackerWrite (16-18)"]}
{"id": "C116", "title": "A serialization type means the same format for writing and reading", "statement": "CreateEmitter succeeds exactly for the types JSON, YAML, XMLPLIST, BUNDLEHDR and MSGPACK whose format is compiled in, gives the emitter of that format, and throws otherwise; CreateParser with a type for which an emitter can be created gives the parser of the same format. GUESS always comes to an end after one guess: XML for '<', YAML for every other character (JSON without YAML), an exception for nothing but blanks. False of the code: that a number that is no type is refused (CreateParser takes it for YAML) and that guessing can find every format that can be written.", "quantifier": "every number passed as type, every combination of formats compiled in, every beginning of the input", "why_tests_cant": "The combinations of build options are not built by the tests, and the types are numbers of which only a few are tried.", "anchors": ["src/Emitter.cc CreateEmitter and the functions it calls (170-217)", "src/Parser.cc CreateParser, CreateParserGuess (73-124)", "src/GuessFormat.cc GuessFormat", "include/Variant/Variant.h SerializeType (579-590)"]}
{"id": "C117", "title": "Float arithmetic gives the nearest number", "statement": "Add, Sub, Mul and Div of two numbers one of which is a Float give a Float and never throw: the number nearest to the exact result that a Float can hold, with an even last bit if two are equally near, so exact results are exact; a result beyond the largest Float is infinite with its sign, one below the smallest loses bits or is zero, to the nearest; Integer and Unsigned operands enter with their exact value; adding and multiplying do not depend on the order, adding the same number keeps the order of two others; Rem is exact, smaller than the divisor and has the sign of the dividend; the result is NaN exactly when an operand is or there is no result (infinity minus infinity, zero times infinity, zero by zero, a remainder of infinity or by zero); ++, -- and unary minus do the same as adding, subtracting one and changing the sign. False: that sums do not depend on grouping, and that a sum taken as a double is the double nearest to the exact sum (it is rounded twice).", "quantifier": "every pair of numbers (Integer, Unsigned, Float), every operation, every floating-point format (bits of the significand, range of exponents)", "why_tests_cant": "There are 2^160 pairs of long doubles; whether each result is the nearest one can not be seen from examples.", "anchors": ["src/Variant.cc my_modulus (31-42), NumericUpcast, NumericOperation (763-792), Float::Incr, Decr, Neg (971-979), Integer::AsLongDouble, Unsigned::AsLongDouble", "include/Variant/VariantInternal.h long double f (77)"]}
{"id": "C118", "title": "A parser that was reset reads like a new one", "statement": "After Reset a parser reads the next document as a new parser would, however the calls before ended: the same value or the same exception, the same input left, and nothing that belongs to the earlier calls is used. A JSON parser that failed and was not reset fails again.", "quantifier": "every state the parser can be in before Reset, every number of handlers left on its stack by calls that failed, every input (JSON, MessagePack, bundle headers, property lists)", "why_tests_cant": "Calls that fail leave handlers with pointers to dead variables on the stack of the parser, and states of a property list parser are never removed; whether one of them is ever used depends on the whole history and on every later input.", "anchors": ["src/VariantParsing.cc: ParseVariant, VariantBaseParserActions::Finish", "include/Variant/Parser.h: TopAction", "src/JSONParser.cc: Reset, Parse, Run", "src/MsgPackParser.cc: Reset, Run", "src/BundleHdrParser.cc: Reset, Run", "src/XMLPLISTParser.cc: Reset, Run, BeginElement, ProcessText, EndElement"]}
{"id": "C119", "title": "The XML and YAML readers get exactly the bytes of the input", "statement": "Whatever numbers of bytes the library behind a property list or YAML parser asks for, one after the other, each time it gets the next bytes of the input, as many as it asked for or all that are left; no byte is lost, repeated or made up, and the end is reported only at the end.", "quantifier": "every content (memory below 2^32 bytes, files and stream buffers of any length), every sequence of sizes asked for below 2^31", "why_tests_cant": "How the library asks depends on the document and the library's version; the buffer is refilled, moved and enlarged differently for every sequence of sizes.", "anchors": ["src/XMLPLISTParser.cc: XMLPLISTParserImpl::do_read (359-368)", "src/YAMLParser.cc: YAMLParserImpl::ParserReadHandler (32-44)", "src/ParserInput.cc: ParserStreamInput, ParserMemoryInput, ParserFileInput::Read"]}
{"id": "C120", "title": "Errors while reading a file are reported", "statement": "If a file cannot be read to its end because of an error, reading it ends in an exception: it never looks like a shorter file.", "quantifier": "every content before the error, every sequence of reads", "why_tests_cant": "Where an error hits a file can not be arranged in a unit test, and whether it is seen depends on its position relative to the buffer.", "anchors": ["src/ParserInput.cc: ParserFileInput::Read (121-131), ParserStreamInput::GetPtr (48-75)"]}
{"id": "C121", "title": "The program name is the last component of the path", "statement": "SetProgramName and the constructor of ArgParse with a path make its last component the name of the program (all of it, if asked for); without a path the name is that of the running program as the system knows it, else as the shell left it in _, else ArgParse.", "quantifier": "every path without NUL, every answer of the system and of the environment", "why_tests_cant": "Slashes at the end, doubled slashes and paths without slashes have to be right for every text, and what the system answers can not be set in a test.", "anchors": ["src/ArgParse.cc: ArgParseImpl::SetProgramName (897-945), ArgParse::ArgParse"]}
{"id": "C122", "title": "Bundles with a payload are read back", "statement": "Writing a map as a bundle writes its other members and the length of payload.data as a bundle header, newlines and a NUL, and then the bytes of payload.data starting at a multiple of 32; reading that from memory or from a file gives back the payload byte for byte, its length under payload.length and the other members, and does not touch what follows the bundle. A value that is not a map or whose payload.data is not a blob is refused.", "quantifier": "every map whose other members survive a bundle header, every payload (any division into buffers, any bytes, none), every number of bytes written before, everything that follows, every buffer size of a file input", "why_tests_cant": "Payloads with NULs and newlines, padding lengths and where blocks of a file end relative to the header have to work in every combination.", "anchors": ["src/Payload.cc: SerializeWithPayload (132-195), ProxyInput (197-230), DeserializeWithPayload (232-286)", "include/Variant/Payload.h: SerializeBundle, DeserializeBundle (91-127)", "src/BundleHdrParser.cc", "src/BundleHdrEmitter.cc"]}
{"id": "C123", "title": "Which exception a path operation throws", "statement": "A path leads to an element or breaks off at exactly one place. Where it breaks off, GetPath throws that the key is missing or the index is out of range if the value there is null or the right kind of container, and that the type is unexpected otherwise. SetPath throws only for a value of the wrong kind or the largest 32-bit index. ErasePath of a missing last element throws only for a value of the wrong kind (and the largest index of a list with elements), and with more missing it is silent, except that pruning throws that the operation is invalid if the path stops at a number, boolean or blob. Storing at or erasing an element that is there never throws.", "quantifier": "every value (for erasing: with lists of fewer than 2^32 elements), every path and every place where it breaks off", "why_tests_cant": "The exception depends on the type of the value at which a path of any length breaks off and on what follows.", "anchors": ["src/Variant.cc: VTable defaults (300-348), GetPathElem, SetPathElem, GetPathConst, SetPath, ErasePath (351-479), Null (605-671), List (1142-1207), Map (1281-1332), Variant::Append (2062-2065)"]}
{"id": "C124", "title": "Doubles survive being written as text", "statement": "A finite double printed with 17 significant digits or more, which is the default of every emitter, is read back as the same double bit for bit, with the sign of a zero; infinities are read back from property lists and YAML. So a list or map written as JSON comes back with every finite double unchanged, and a value without NaN written as a property list or YAML comes back equal. With 16 digits, which the caller may choose, this is false.", "quantifier": "every double, every precision of at least 17, every value with doubles anywhere in it, every emitter configuration", "why_tests_cant": "There are 2^64 doubles; rounding to decimal digits and back to binary must cancel at every exponent, for subnormal numbers and at every boundary between powers of ten and of two.", "anchors": ["src/JSONEmitter.cc: numeric_precision (43), Emit double (124-136)", "src/XMLPLISTEmitter.cc: precision (45), Emit double (151-160)", "src/YAMLEmitter.cc: precision (52), Emit double (327-343)", "src/GuessScalar.cc: strtod (100)", "src/XMLPLISTParser.cc: strtod (252)"]}
{"id": "C125", "title": "What exceptions say", "statement": "The text of an exception tells everything it was constructed from: which exception it is, the types, the key and the operation; different types have different names. If a path lookup fails at a missing key, the exception names that key, the first one that is missing; if it fails at a value of the wrong type, it names this type and the one that was expected.", "quantifier": "every exception of the library with a text of its own, every type number, key and operation name; every value and path", "why_tests_cant": "Keys and operation names are arbitrary texts that could look like the rest of the message.", "anchors": ["src/Exceptions.cc: operator<< (27-61), messages (68-196)", "src/Variant.cc: GetPathConst (409-430), GetConstKey (338-341, 658-661, 1307-1316), GetConstIndex (309-312, 627-630, 1182-1190)"]}
{"id": "C126", "title": "A document with a payload on an output that fails", "statement": "Whatever an output does with SerializeWithPayload, taking part of a block, nothing, or throwing, and whenever the program is stopped, it has taken a beginning of the document; and when SerializeWithPayload returns, it has taken all of it. Into a block of memory the call succeeds exactly if header, padding and payload fit; otherwise it throws, nothing is written beyond the block, and what is there is a beginning of the document.", "quantifier": "every header, payload and division of the payload into buffers, every size of the block, every sequence of answers of the output, every moment at which the program is stopped", "why_tests_cant": "The answers of an output and the moment of a crash are unbounded sequences.", "anchors": ["src/Payload.cc: SerializeWithPayload (132-195, 307-319)", "src/EmitterOutput.cc: EmitterMemoryOutput (81-99)"]}
{"id": "C127", "title": "A Float as text", "statement": "A Float made into text with AsString and converted back with AsDouble is the same number; where it is not, it has the same text and differs by no more than a hundred-thousandth.", "quantifier": "every long double that is no larger than doubles can be", "why_tests_cant": "There are 2^64 doubles and more long doubles; that digits suffice or two roundings agree is seen on few of them only", "anchors": ["src/Variant.cc: Float::AsString, String::AsLongDouble", "include/Variant/Variant.h: Variant::AsDouble, Variant::AsString"]}
{"id": "C128", "title": "What the text of a recorded event tells", "statement": "The text printed for a recorded event tells which event it is: of two different events the texts are different.", "quantifier": "every pair of recorded events, with any string, number, double, blob and number of elements", "why_tests_cant": "Strings may contain anything that the texts of other events consist of; doubles and integers have 2^64 values", "anchors": ["src/EventBuffer.cc: EventBuffer::Event::Print", "src/EventBuffer.h: EventBuffer::Event"]}
{"id": "C129", "title": "Messages name the option they are about", "statement": "The message about a required option or argument that is missing tells which one it is: no two options of a parser, and no option and positional argument, are called the same in messages. The message about a limit (a text too short or too long, a number too small or too large, too many or too few arguments) tells the limit, what was given and the name.", "quantifier": "every sequence of registrations, failed ones included, with any key paths, short and long options and titles", "why_tests_cant": "Names are arbitrary texts that could look like the rest of the message, and registrations are unbounded sequences", "anchors": ["src/ArgParse.cc: OptName (244-260), AddOption (302-325), FinalizeResult (1648-1675), CheckRequirements (1393-1450)"]}
{"id": "C130", "title": "Flattening to texts", "statement": "FlattenPathToStrStrMap of a map has exactly one entry for every leaf, under the text of its path and with the text of the leaf, and no others; it succeeds exactly if every leaf has a text, which all but blobs have. A list that is kept whole is told by its text.", "quantifier": "every map of any depth and size, all parameters", "why_tests_cant": "Maps are of unbounded depth, and keys and texts are arbitrary, so that two paths or two lists could have the same text", "anchors": ["src/Extensions.cc: FlattenPathToStrStrMap (188-215), FlattenPathTo (121-162)", "src/Variant.cc: AsString"]}
{"id": "C131", "title": "Reading into variables", "statement": "GetInto and GetPathInto with a default set the variable to what is at the key or path, cast to the type of the variable, and to exactly the default if nothing is there, for every integer type and vectors of them, negative defaults of small types included; without a default nothing there is an exception.", "quantifier": "every variant, key, path, integer type and default of that type", "why_tests_cant": "The default goes through a variant and a cast of its own for each type, so it must come back unchanged for every value of every type", "anchors": ["include/Variant/Variant.h: GetInto, GetPathInto (546-566), Variant constructors (101-110)", "include/Variant/Variant.h: variant_cast (460)"]}
