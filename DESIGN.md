# libvariant: formal model and proofs in Lean 4

## Approach

The library is modelled in Lean 4 under `lean/Verif/`, one directory per area.  Each area has

* `Model.lean` (or files named after the function group): definitions that follow the C++ function by
  function, each with the file and lines in /repo it models and any simplification made;
* `Spec.lean` (or a section "Specification"): what the properties say, without the helpers of the model;
* lemma files;
* `Props.lean` and files named after the claim: the property theorems, each with an example that meets its
  hypotheses.

Common conventions:

* Outcomes are explicit: `ok a`, `throw e` (a C++ exception, by kind) or `ub` (undefined behaviour: access
  outside an object, signed overflow, division by zero ...).  Where the code may fail to return, the outcome
  has one more layer (`Option`, or a fuel argument with a theorem that no fuel is enough).
* Bytes are `UInt8`; 32-bit `unsigned` and 64-bit integers wrap where the C++ wraps.
* Where a property is false of the code, the negation is proved with a concrete witness (theorems named
  `..._false`, `..._ub`, `..._hangs`) and the strongest true part is proved as `..._partial`.
* MANIFEST.json names the theorems of each claim; the wrong programs tried against them are in
  seeded/LOG.jsonl.

## Trusted base

* Lean 4.33.0 and its kernel.  No Mathlib module is imported; only the core library.  One proof (`meta_read` in
  Schema/MetaParsed) is a computation too large for the elaborator; a three-line tactic hands `Eq.refl` to the kernel, which
  does the computation and accepts or rejects it.  The tactic is not trusted.
* The axioms `propext`, `Classical.choice` and `Quot.sound`.  AXIOMS.txt lists the axioms of every theorem
  named in MANIFEST.json, as printed by `#print axioms`.  There are no axioms of our own, no `sorry`, no
  `native_decide`, no `bv_decide`, no `implemented_by`.
* That the definitions say what the C++ says.  Each cites its lines.
* The assumptions that are stated as hypotheses of the theorems; they are listed with the areas below.

## What is modelled, by area, and what is left out

**Values** (`Val`, `Path`; src/Variant.cc, src/Path.cc).  A value is a tree; a map is a sorted association list
with distinct keys (`Val.WF`).  All path operations, comparison, arithmetic, merging, references and
proxies (as a root and a path).  Doubles are their bit patterns; comparison goes through `long double`, exact
rational values rounded to `p` significand bits where `p` is a parameter (64 on x86).  Arithmetic on floats
is a parameter.  Sharing of storage is not in this model but in the next one.

**Storage and sharing** (`Heap`; src/Variant.cc).  Slots, shared cells and variables; any program of
assignments, copies, `SetPath`, `ErasePath`, `Append`, `Clear`.  Cells are never freed (not observable).
Blob contents changed through the Blob interface are not modelled.

**References and lifetimes** (`Ref`; src/Variant.cc, include/Variant/Variant.h, include/Variant/VariantInternal.h).
The memory itself: objects, storage, owners, the flags that tell references whether their target exists, vectors that
move their elements when they grow.  Numbers of objects and storage are never used again, so a number that is not
alive is a dangling pointer, and using one is undefined behaviour.  Programs are sequences of declarations, ends of
scopes, assignments, `Copy`, `Ref`, `At`, `AtPath`, `ReassignRef`, `Set`, `Append`, `Erase`, `Clear`, reads and `Exists`, with
exceptions caught.  `shared_ptr` and the containers of the standard library are taken to work; the capacity a vector
gets is a parameter.  Histories are covered as long as no value contains itself before an operation.

**Blobs and Base64** (`Blob`, `Base64`; src/Blob.cc, src/Base64.cc).  Slab by slab and byte by byte, tables and
32-bit size computations included.  Blob/Life has the life of blobs: programs with pointers and variants, free functions
and failing allocations, in one thread.

**JSON** (`Json`, `Build`; src/json/JSON_parser.c, src/JSONParser.cc, src/JSONEmitter.cc, src/VariantParsing.cc).
The automaton with its tables, parse buffer and mode stack; the driver over blocks; the emitter with its buffer
and short writes; the action stack that builds values.  The text of a double (`snprintf`) and its reading
(`strtod`) are parameters with one hypothesis (`FloatLaw`), which Dec/Props proves for the correctly rounding
printing and reading of Dec/Model.

**Streams** (`IO`, `Misc`; src/ParserInput.cc, src/EmitterOutput.cc, src/ParseBool.cc).  Buffers, requests and
releases; what a read returns is a schedule.

**Recorded events and MessagePack** (`Event`; src/EventBuffer.cc, src/MsgPackEmitter.cc, src/MsgPackParser.cc).
msgpack-c is modelled as the calls it is given and the callbacks it makes, and taken to reproduce the packed
objects; its reader stack is a parameter.

**Schemas** (`Schema`, `Loader`, `Uri`, `Defaults`; src/Schema.cc, src/SchemaLoader.cc).  All keywords with the
recursion limit, the errors with their paths; the schema of schemas as the loader has it; registration,
normalisation and lookup of schemas; URI resolution with the POSIX
leftmost-longest regular expression written out as a function (C locale); filling in defaults.  Regular
expressions of `pattern`, file system, network and user-supplied handlers are parameters (handlers only add).
The loader of `Defaults` gives one answer per reference.

**Pointers, patches, differences, flattening** (`Ext`; src/Extensions.cc).  On trees: storage shared by `copy`
and `add` operations of a patch is not modelled.  `strtoull` is written out.

**Payloads** (`Payload`; src/Payload.cc).  JSON headers, and bundle headers in `Payload/Bundle`; what an input delivers per request is a schedule; the
reading of a number out of a string (`iss >> uintmax_t`) was a parameter there and is written out in `Conv`.

**Command lines** (`Args`, `Guess`; src/ArgParse.cc, src/GuessScalar.cc).  Registration, options as getopt
delivers them and the words getopt reads (`Args/Getopt`, after the GNU C library: getopt is not in the repository), environment, configuration files, requirements, groups, the generated schema,
the description of a parser and merging one (values as trees; members of a group in any order).  The regular expressions of GuessScalar
are written out; `strtod`, user callbacks and a stale `errno` are parameters.  The help is a text (`Args/Help`); what
was printed before an exception is not modelled.

**Bundle headers** (`Bundle`; src/BundleHdrParser.cc, src/BundleHdrEmitter.cc, src/GuessFormat.cc).  Line and
value buffers as byte lists (without the terminating NUL), wrapping of `len + 4096` ignored beyond 2^31,
`isspace` of negative characters taken as false.  GuessFormat with XML and YAML compiled in.

**XML property lists** (`Xml`; src/XMLPLISTParser.cc, src/XMLPLISTEmitter.cc).  libxml2 is the sequence of nodes
it delivers, and the calls it is given; that it delivers the text it wrote (if XML can carry it) is built into
the function `readerNodes` that connects the two.

**YAML** (`Yaml`, `LoadAll`; src/YAMLParser.cc, src/YAMLEmitter.cc, src/VariantParsing.cc).  libyaml is the
sequence of events it delivers, and accepts (it may refuse later than modelled); which texts it takes (`utf8`)
and writes without quotes (`plain`) are parameters with hypotheses (`LibLaw`); the text of a double has
`DigitsLaw`.  Values are trees: that an alias shares the storage of its anchor is not modelled.  Iterators over
documents: one family of iterators per parser.

**Conversions and parameters** (`Conv`; src/Variant.cc, include/Variant/Variant.h, the emitters).

**varsh** (`Tool`; src/varsh.cc).  The parser of the command line, call by call, without help texts; all of `Process` and
`main`, with the readers, writers, flattening and schemas as parameters.

Not modelled: libxml2, libyaml, libcurl and msgpack-c themselves; threads (the library has no locking
beyond atomic reference counts); allocation failure (other than for blobs); locales other than C; programs other than varsh; files varsh cannot open or write to.

## Plan per property

| id | what is modelled | how it is proved |
|----|------------------|------------------|
| C01 | JSON emitter text, JSON_parser.c automaton, JSONParserImpl callbacks, value builder | induction over the tree: running the automaton over the text of a value from any value-position state returns to the matching state having delivered the value's events |
| C02 | same emitter with indentation | the same induction with arbitrary white space between tokens |
| C03 | EmitRaw / EmitIndent / Flush with a 512 byte buffer, short-write oracle | invariant: written ++ buffered = emitted, buffered <= 512 |
| C04 | EmitString, parser string states | induction over the bytes |
| C05 | Parse loop over blocks | fold over concatenation |
| C06 | Parse loop, consumption count | corollary of the C01 induction with an arbitrary suffix |
| C07 | the whole tokenizer with checked table access and `ub` outcome | invariant over all reachable tokenizer states, preserved by each byte |
| C08 | tokenizer | false: witness `[tru/**/]`; partial: without comments |
| C09 | tokenizer and event sequence | invariant relating mode stack and event prefix grammar |
| C10 | action-stack builder of VariantParsing.cc | induction over the tree |
| C11 | ParsePath, PathString | induction over elements and characters |
| C12-C17 | pure value tree with the per-type operations of Variant.cc | induction over the path |
| C18 | Ref/Proxy lookups as (root, path) handles | induction over the chain |
| C19, C20 | heap of shared storages | reachability / separation invariant preserved by every operation; fresh copies; each modification of one container is the one on trees, whatever the elements stand for (Heap/Level) |
| C21, C22, C23, C52 | Compare functions | induction over trees; integer arithmetic; blob prefix counterexample |
| C24 | Blob segments | induction over segments |
| C25-C27 | Base64.cc, byte by byte | induction over 3-byte groups; segmentation flattening; size bounds |
| C28 | ParserStreamInput buffer | refinement to a stream position |
| C29 | EmitterMemoryOutput | invariant; wrap-around counterexample |
| C30 | ParseBool | list induction |
| C31-C33, C53 | EventBuffer, MsgPackEmitter, MsgPackParser | induction over trees with parent pointers |
| C34 | SchemaValidate with depth counter | structural: the model is a total function whose measure is the depth counter |
| C35-C37, C54 | Schema keyword validators | per keyword equivalence with logical specification |
| C38-C41 | JSON pointer / patch / diff | tree-level operations, induction over tokens |
| C42, C43 | RDiff/RUpdate, Flatten/Expand | tree induction |
| C44, C45 | Payload.cc | arithmetic and list lemmas |
| C46, C47 | SchemaLoader.cc string functions | induction over segments/bytes |
| C48 | ArgParse registration | invariant by induction on the history |
| C49 | NumericUpcast/NumericOperation | integer arithmetic on BitVec/Int |
| C50 | Merge | map lemmas |
| C51 | JSON driver before the first bracket | witness; false of the code |
| C55 | GuessScalar with its regular expressions as functions | characterisation of each expression by a grammar |
| C56-C61 | ArgParse::Parse over option events, environment, files | invariant over the event history; folds |
| C62-C65 | SchemaLoader: AddSchema, normalisation, lookup, sources | induction over documents and chains of loaders |
| C66-C70 | ValidateSchema with defaults (phase 2) | invariant of the fill-in steps; measure for termination |
| C71-C76 | bundle header scanner, emitter, GuessFormat | refinement of the scanner to a line grammar; round trip by induction |
| C77-C82 | property-list parser and emitter over libxml2 nodes | induction over document trees, both directions |
| C83, C84 | YAML parser over libyaml events | evaluation relation of document trees; invariant of the handler stack |
| C85, C86 | LoadAllIterator over any source of values | refinement to positions in a sequence |
| C87-C89 | YAML emitter as an event acceptor | induction over values; invariant of the open collections; composition with C83 |
| C90 | Conv/Model: AsInt, AsUnsigned, variant_cast to each integer type | cases over values, bmod arithmetic; findings by witness |
| C91 | Conv/Model: casts of vectors, maps, complex, AsString | induction over lists; text lemmas |
| C92 | Conv/Params: GetParam, SetParam, GetParams, SetParams, constructors of the four emitters | one interface (Settable) proved of each, the rest from it by induction over the map |
| C93 | Ref/Model: memory, every operation, undefined behaviour as an outcome | invariant over memory (Ref/Inv), frame and specification of every function (Ref/Prim to Ref/Step) by case analysis and induction over paths; induction over the program |
| C94 | the same | what operations leave of objects (Evolve, Fr); equality of runs through two names by congruence of the monad; exact runs of put, assign, Append, Set |
| C95 | the same | the invariant that storage has an owner; pigeonhole: without cycles every chain of owners ends at a variable |
| C96 | the same | a specification of paths (`path?`, `Creatable`) in Ref/Spec; every step of creating a path is shown to extend the path by one element and to leave the rest of it (Ref/Create) |
| C97 | the same, with a relation `Is` between objects of memory and the values of Val/Basic (Ref/TreeSpec) | frame lemmas per operation: which contents change (Ref/Change, Ref/Container), induction over values for the rest |
| C98 | Copy as the recursion over memory it is, with undefined behaviour when it does not end | its specification by induction over the height of the value, which a value that does not contain itself has (Ref/Deep); which objects are new and that nothing old leads to them (Ref/CopyProps) |
| C99 | GenerateSchema of options, groups and parser (Args/Gen) on top of Parse and of the validator | the schema under construction is a tree with one leaf per path (Args/GenTree), the result a tree with one value per path (Args/GenResult); the leaf accepts what Parse can store (Args/GenLeaf, GenProps) |
| C100 | as C99; what a document must be is said in Args/GenSpec (Conforms, Suits) without the functions that generate schemas | keyword by keyword for a leaf (Args/GenSound), induction over the tree (Args/GenIff), oneOf of groups (Args/GenAccept), together (Args/GenWhole, GenConforms) |
| C101 | the text of the schema of schemas (Schema/MetaText), what the parser and the loader make of it (Schema/Meta, MetaParsed), `SchemaValidate` with its own loader (Schema/Whole); what a schema is is said in Schema/MetaSpec (Form, Proper) | what each part of the schema of schemas accepts (Schema/MetaRuns, MetaAccept), induction on the depth; totality by a closed family of schemas the validator understands (Schema/Calm, MetaLoad) |
| C102 | as C101; what the schema of schemas overlooks is Checked in Schema/MetaSpec | normalising keeps a schema understood (Schema/MetaNormed), induction on its depth (Schema/Calm) |
| C103 | all calls that set up a parser, GetDescription and Merge (Args/Desc); the union of descriptions in Args/DescUnion | invariant of everything a program can build (Args/DescSound), an entry made from a description is described alike (Args/DescMerge), induction over entries and groups |
| C104 | the calls of Args/Desc; what each shows is a table in Args/DescShow | the keys of a described entry are those of its settings (Args/DescShow `view`), case analysis over the setters; nothing else changes because descriptions are found by key path |
| C105 | Args/Validate `validateParser`; the schema of src/argparse-schema.yaml as a value (Args/SchemaVal), read from its text (Args/SchemaText) | Args/ValidateSpec `DescriptionOk` says the form; the validator of Schema/ run on that schema accepts exactly this (Args/ValidateRuns, ValidateWhole); what the calls leave in the tables is an invariant (Args/ValidateTidy), from which the form of the description follows (Args/ValidateEntry) |
| C106 | Args/Help `helpText`, `helpLine`, `usage`, `placeOption` | Args/HelpSpec `layout` (where every piece stands), `visible`; HelpProps `UsageForm.allows`; the groupings by induction over the options (HelpLayout), existence of the groups of every entry by induction over the calls (HelpBuilt), one entry per option by counting, totality by the invariant of ValidateTidy |
| C107 | Args/Parse `parse` with `helpEnd`, `addHelpOptions` | Args/HelpAsked: the entries but for their values, and the wish for help, are kept by every step; adding the help options is a sequence of calls, so the parser is still a built one |
| C108 | Args/Getopt: the tables `Parse` builds, `getopt_long` after the GNU C library, `parseLine` | Args/GetoptSpec says when words can be read; Args/GetoptScan: the scanner finds exactly the readings (induction on readings and on words); names of entries are numbered by their short option through every sequence of calls |
| C109 | Blob/Life: programs with `BlobPtr`s and variants, counters of `shared_ptr`, allocations that fail | Blob/LifeInv: counters count and a free function was called exactly for the blobs whose counter is 0, kept by every operation; induction on programs; `Op.expected` in Blob/LifeView says what variables hold |
| C110 | Tool/Varsh: the calls of `main` of varsh, with YAML and property lists on or off; Tool/VarshProps: the choice of formats | Args/GroupDefault: the finalisation of entries one by one keeps values and adds only defaults, so a group with a default has exactly one value; Args/BuiltReached: every parser built by any calls, `Merge` included, has registrations the theorems about `Parse` start from; the parser of varsh is computed by the kernel |
| C111 | Tool/Run: `Process` and the rest of `main` of varsh, over any readers, writers, flattening and schemas; Tool/RunSpec: what the options and words of a command line ask for | the configuration is determined entry by entry (last word, list of words, flag, default) by the theorems about `Parse`, and the run on it is rewritten to the run asked for; Tool/RunLine starts from the words, by C108; Tool/RunMore: consequences, and the two refutations |
| C112 | Schema/Report: the validator again, function by function, with both paths, the errors and the results of alternatives; Schema/ReportSpec: what is checked against what (Move, Reach), what is wrong with data (Fault) and with a schema (Defect) | Schema/ReportAgrees: forgetting the paths gives the other model; Schema/ReportProps: what is reported from a place on is below it and explained, by induction on the depth; Schema/Places: the paths lead there, and the two refutations |
| C113 | Schema/Print: results with messages, PrettyPrintMessage line by line | Schema/PrintProps: the specification is the list of entries (depth, kind, texts); the text is their lines, by induction on results; reading the lines back gives the entries, with pathString injective up to the path of one empty key; two refutations |
| C114 | Event/Random: the generating functions over the list of numbers rand() returns, nesting bounded by a number that is never reached (`fuel_enough`) | Event/RandomProps: `Fit` says which values may come out; soundness and completeness by induction on the nesting, loops by induction on their lengths; playing back by C31; two refutations |
| C115 | Sink/Model: an output as any function from the calls made, bytes taken and bytes safe to an answer; the write loops, buffer and flushes of the JSON emitter and the single writes of the MessagePack emitter over it, up to any call at which the process stops | Sink/Props: an invariant (taken ++ buffered = text so far, taken is a beginning) kept by every step; termination for outputs that take all or throw by counting calls; refutations with a full disk and a full stream |
| C116 | Dispatch/Model: `CreateEmitter`, `CreateParser`, `CreateParserGuess` over any number as type and any combination of build options | Dispatch/Props: cases, against a table of what the types stand for |
| C117 | Num/Model: a `long double` as sign and rational magnitude, infinities and NaN; rounding to a format (bits, smallest and largest exponent, so subnormal numbers and overflow to infinity); the operations of IEEE-754 as the code uses them, `NumericOperation`, `Incr`, `Decr`, `Neg` | Num/Round: rounding to units of the last place gives the nearest of all numbers of the format (numbers with a smaller unit lie below), keeps the order, ties to even; Num/Props: each operation |
| C118 | The parsers with handlers of earlier calls below their own (`Verif/Reset/Model.lean`): a call of one of those is undefined. | Invariant: the bottom handler of the current call is inside a document, so the stack of the current call is not empty; simulation of the property list parser on a state stack with anything below. False for property list values outside `plist`: witnesses. |
| C119 | IO/Adapter: `ParserMemoryInput`, `GetPtr` on a file, `do_read`/`ParserReadHandler`, sequences of reads | IO/AdapterProps: the buffer holds the front of what is left (C28's invariant), so each read is `take`/`drop` on the content; induction over the sizes |
| C120 | IO/Adapter: `ParserFileInput::Read` with an error after the last byte | IO/AdapterProps: same invariant; reading by blocks by induction over the content |
| C121 | Args/Name: `SetProgramName`, `basename` | Args/NameProps: against an independent description of the last component (`LastOf`, shown to determine it) |
| C122 | Payload/Bundle: writing, `ProxyInput` over any input, reading; Bundle/Model for the header | Payload/BundleRead (where the input is after the header; the proxy serves the header), BundleWrite (the calls are those of the members written), BundleRound, BundleProps |
| C123 | Val/Ops (element and path operations) | Val/Errors: induction over the path to the place where it breaks off |
| C124 | Dec/Model (printing with %#.*g and strtod, correctly rounding), the emitters and parsers of JSON, property lists, YAML | Dec/Nearest: the decimal and the binary grid, 17 digits are finer than half the gap between doubles; Dec/Text: reading the text apart; Dec/Props and Dec/Bundle: the round trips |
| C125 | Val/Message (the texts of exceptions, path lookup with full exceptions) | texts are split at blanks and commas, which names of types do not have; induction over the path |
| C126 | Sink/Payload (the write loops of SerializeWithPayload on any output, Sink/Model) | induction over the calls left; the padding loop with and without its last byte; memory as an output that takes a block whole or throws |
| C127 | Dec/AsText (Float::AsString with %Lg, istream >> long double, the cast to double) | numbers near a number of six digits have its digits; rounding errors relative to the number; witnesses evaluated |
| C128 | Event/Print (Event::Print, with Dec/AsText for doubles) | the name of the type ends at the first comma or parenthesis; names and numbers are injective |
| C129 | Args/OptName (OptName and the message for missing entries, over the registrations of C48) | the three forms start differently or differ in length; with C48 registered options are apart; messages about limits are read from the end, number by number |
| C130 | Ext/FlattenText (FlattenPathToStrStrMap on value trees, over Ext/Flatten of C43) | the flat form has exactly the leaves since plain path texts can be read back; the loop over it entry by entry; lists by induction on their texts |
| C131 | `getPathInto`, `getIntoC`, `getPathIntoC`, `ofIntTy` (Verif/Conv/Into.lean) | the default is made a variant and cast back: `int_comes_back` by cases on the type with `cast_wraps_false` and `wrap_has`; vectors by induction; then cases on what is found |

## Findings

Beyond the `_false` theorems (summarised claim by claim in MANIFEST.json), reading the code showed:

* `SetIndex`/`GetRefIndex` with 0xFFFFFFFF empty the list and throw; `EraseIndex` computes `i + 1` modulo 2^32.
* Filling in defaults overwrites an existing null.
* Signed overflow, division by zero and INTMAX_MIN / -1 are undefined behaviour of Variant arithmetic.
* The MessagePack output ignores short writes; the default length of EmitterMemoryOutput is uninitialised if no
  length is asked for.
* The JSON parser is not reset after a finished document.
* `copy` and `add` operations of a patch make two places of the document share storage.
* NaN passes numeric bounds; `Required(bool)` of ArgParse ignores its argument.
* SchemaValidate registers the caller's schema under the empty URI and changes it (references become absolute).
* The write handler of the YAML emitter returns the number of bytes written: -1 counts as success for libyaml.
* Negative short options and short options above 256 collide or are ignored silently.
* GuessFormat reads behind its input if that consists of blanks.
* `v["a"] = v` with `v` null depends on the order in which `VTable::Assign` evaluates its operands (line 255).
* `v[5] = v[0]` on a list reads the old element after the list has moved it; likewise any scalar assigned through
  an unresolved reference from an element of the container it creates an element in.
