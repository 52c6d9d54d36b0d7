{
 "claims": [
  {
   "property": "C11",
   "status": "proved",
   "theorems": [
    "Verif.PathM.parsePath_pathString",
    "Verif.PathM.parsePath_pathString_iff",
    "Verif.PathM.parsePath_pathString_trailing_empty",
    "Verif.PathM.pathString_injective",
    "Verif.PathM.parsePath_total"
   ],
   "note": "exact characterisation: only a trailing empty key is lost"
  },
  {
   "property": "C23",
   "status": "partial",
   "theorems": [
    "Verif.Blob.compare_firstDiff",
    "Verif.Blob.compare_eq_iff_partial",
    "Verif.Blob.compare_eq_iff_prefix",
    "Verif.Blob.compare_distinguishes_false"
   ],
   "note": "segmentation independence proved; 'different contents differ' is false of the code (prefixes compare equal), proved for equal lengths"
  },
  {
   "property": "C24",
   "status": "partial",
   "theorems": [
    "Verif.Blob.createCopy_faithful_partial",
    "Verif.Blob.copy_independent",
    "Verif.Blob.createCopy_wrap_ub"
   ],
   "note": "proved below 2^32 bytes; at 2^32 the 32-bit length wraps and the copy overruns its allocation (proved)"
  },
  {
   "property": "C25",
   "status": "proved",
   "theorems": [
    "Verif.B64.decode_encode",
    "Verif.B64.encode_rfc4648",
    "Verif.B64.encode_segmentation",
    "Verif.B64.encode_empty_slab_ub"
   ],
   "note": "for non-empty slabs; an empty slab is undefined behaviour (proved)"
  },
  {
   "property": "C26",
   "status": "partial",
   "theorems": [
    "Verif.B64.encode_fits_partial",
    "Verif.B64.decode_fits_partial",
    "Verif.B64.encode_fits_false"
   ],
   "note": "holds up to the 32-bit wrap of the size computation; false beyond it (witness of 2^30 bytes)"
  },
  {
   "property": "C27",
   "status": "partial",
   "theorems": [
    "Verif.B64.decode_total_partial",
    "Verif.B64.decode_ignores",
    "Verif.B64.decode_total_false"
   ],
   "note": "false for texts containing '{' (reads one past the table), proved for all other texts"
  },
  {
   "property": "C05",
   "status": "proved",
   "theorems": [
    "Verif.JsonDrv.chunking_independent"
   ],
   "note": "for any cutting into non-empty blocks, including the exception outcomes and unread bytes"
  },
  {
   "property": "C07",
   "status": "partial",
   "theorems": [
    "Verif.JsonTok.tokenizer_safe",
    "Verif.JsonTok.step_R",
    "Verif.JsonDrv.parser_safe_partial",
    "Verif.JsonDrv.parser_safe_bracket_partial",
    "Verif.JsonDrv.parser_safe_false",
    "Verif.JsonTok.parse_buffer_refines",
    "Verif.JsonTok.mode_stack_refines"
   ],
   "note": "the tokenizer is safe on every text; the parser object that keeps feeding it after a rejection is not (witness 'x[1]'), and is shown safe otherwise"
  },
  {
   "property": "C08",
   "status": "partial",
   "theorems": [
    "Verif.JsonTok.literals_complete_partial",
    "Verif.JsonTok.literals_complete_false"
   ],
   "note": "false of the code when a comment replaces the last letter ('[tru/**/]' reads as [true]); proved for every other following character"
  },
  {
   "property": "C09",
   "status": "proved",
   "theorems": [
    "Verif.JsonTok.tokenizer_bracketed",
    "Verif.JsonDrv.parser_bracketed",
    "Verif.JsonDrv.deserialize_bracketed"
   ],
   "note": ""
  },
  {
   "property": "C10",
   "status": "proved",
   "theorems": [
    "Verif.Build.build_document",
    "Verif.Build.build_bare",
    "Verif.Build.build_replay",
    "Verif.Build.denotes_exists_unique"
   ],
   "note": ""
  },
  {
   "property": "C12",
   "status": "proved",
   "theorems": [
    "Verif.setPath_getPath",
    "Verif.Heap.setPath_reads_back",
    "Verif.Heap.setPath_cyclic_false",
    "Verif.setPath_below",
    "Verif.Heap.set_level",
    "Verif.Heap.get_level"
   ],
   "note": "Value trees (no storage sharing); see the heap model for shared storage."
  },
  {
   "property": "C13",
   "status": "proved",
   "theorems": [
    "Verif.setPath_frame"
   ],
   "note": "Value trees; the padding disjunct names exactly which null elements may appear."
  },
  {
   "property": "C14",
   "status": "partial",
   "theorems": [
    "Verif.setPath_failed_unchanged_partial",
    "Verif.setPath_failed_unchanged_false"
   ],
   "note": "False for index 0xFFFFFFFF: i + 1 wraps, the list is emptied before the exception (witness proved). Proved for every path not using that index."
  },
  {
   "property": "C15",
   "status": "proved",
   "theorems": [
    "Verif.hasPath_getPath_agree",
    "Verif.contains_get_agree"
   ],
   "note": ""
  },
  {
   "property": "C16",
   "status": "partial",
   "theorems": [
    "Verif.erasePath_key_gone",
    "Verif.erase_index",
    "Verif.erasePath_at",
    "Verif.erasePath_frame",
    "Verif.erasePath_prune_keeps_partial",
    "Verif.erasePath_failed_unchanged",
    "Verif.erasePath_prune_false",
    "Verif.Heap.erase_level"
   ],
   "note": "All parts proved for lists shorter than 2^32, except that pruning also removes null elements that were already empty (witness proved)."
  },
  {
   "property": "C17",
   "status": "proved",
   "theorems": [
    "Verif.setPath_only_null_converts",
    "Verif.setPath_wrong_type_throws",
    "Verif.setElem_only_null_converts",
    "Verif.append_only_null_converts",
    "Verif.Heap.append_level"
   ],
   "note": ""
  },
  {
   "property": "C18",
   "status": "proved",
   "theorems": [
    "Verif.chain_read_unchanged",
    "Verif.chain_assign_eq_setPath",
    "Verif.atPath_spec"
   ],
   "note": "References to a document that is not modified in between."
  },
  {
   "property": "C19",
   "status": "proved",
   "theorems": [
    "Verif.Heap.copy_independent",
    "Verif.Heap.copy_reads_same"
   ],
   "note": "Storage model with shared cells; a state is any state a program reaches. Modifications: SetPath, ErasePath, Append, Clear, assignment and Copy through any variables on one side. A copy that does not terminate (cyclic value) is excluded by the hypothesis."
  },
  {
   "property": "C20",
   "status": "proved",
   "theorems": [
    "Verif.Heap.assign_shares",
    "Verif.Heap.assign_scalar_separate"
   ],
   "note": "Any sequence of in-place modifications."
  },
  {
   "property": "C21",
   "status": "partial",
   "theorems": [
    "Verif.veq_refl",
    "Verif.veq_symm",
    "Verif.veq_trans_partial",
    "Verif.veq_deepCopy",
    "Verif.veq_trans_blob_false",
    "Verif.veq_nan_false"
   ],
   "note": "Reflexive, symmetric and copy-equal on all values; transitive when the middle value has no NaN and no blob. Transitivity is false with blobs (a blob equals each of its prefixes; witness proved)."
  },
  {
   "property": "C22",
   "status": "proved",
   "theorems": [
    "Verif.int_compare_by_value",
    "Verif.int_compare_53_false"
   ],
   "note": "For a long double with at least 64 significand bits (x86); false where long double is double (witness proved)."
  },
  {
   "property": "C49",
   "status": "partial",
   "theorems": [
    "Verif.integer_arithmetic_exact_partial",
    "Verif.integer_arithmetic_defined",
    "Verif.arith_non_numeric",
    "Verif.incr_decr_neg_exact",
    "Verif.integer_arithmetic_exact_false"
   ],
   "note": "Exact for + - * always and for / % except: Unsigned with a negative Integer (wrong result, witness), INT_MIN % -1 (undefined, witness), zero divisors."
  },
  {
   "property": "C52",
   "status": "partial",
   "theorems": [
    "Verif.compare_antisymm_partial",
    "Verif.compare_lt_trans_partial",
    "Verif.compare_antisymm_false"
   ],
   "note": "True between two numbers and between two strings; false for lists, maps and values of different kinds (witness proved)."
  },
  {
   "property": "C50",
   "status": "proved",
   "theorems": [
    "Verif.merge_overrides",
    "Verif.merge_other"
   ],
   "note": ""
  },
  {
   "property": "C51",
   "status": "partial",
   "theorems": [
    "Verif.JsonDrv.leading_text_absorbed",
    "Verif.JsonDrv.parser_safe_false"
   ],
   "note": "false of the code: '1[5]' reads as [15]"
  },
  {
   "property": "C01",
   "status": "proved",
   "theorems": [
    "Verif.JsonTok.json_round_trip",
    "Verif.JsonTok.serialize_succeeds",
    "Verif.JsonTok.json_round_trip_nul_false"
   ],
   "note": "For every well-formed list or map with NUL-free strings and keys shorter than 2^32 and blobs without empty segments; relative to FloatLaw (shape of the C library's float text, strtod ignoring trailing blanks), which C124 proves for correctly rounding printing and reading. The NUL restriction is shown necessary."
  },
  {
   "property": "C02",
   "status": "proved",
   "theorems": [
    "Verif.JsonTok.pretty_printing_neutral"
   ],
   "note": "Any two configurations with the same float precision."
  },
  {
   "property": "C03",
   "status": "proved",
   "theorems": [
    "Verif.JsonEmit.emitter_output_integrity",
    "Verif.JsonEmit.emitter_output_independent",
    "Verif.JsonEmit.emitter_buffer_fits"
   ],
   "note": "For every sequence of emitter calls and every short-write schedule."
  },
  {
   "property": "C04",
   "status": "proved",
   "theorems": [
    "Verif.JsonTok.string_escaping"
   ],
   "note": "All NUL-free strings shorter than 2^32 bytes."
  },
  {
   "property": "C06",
   "status": "proved",
   "theorems": [
    "Verif.JsonTok.document_consumes_exactly"
   ],
   "note": "Any following bytes, any chunking."
  },
  {
   "property": "C28",
   "status": "partial",
   "theorems": [
    "Verif.IO.stream_delivers_partial",
    "Verif.IO.stream_delivers_8192_partial",
    "Verif.IO.stream_short_read_false",
    "Verif.IO.stream_large_request_hangs"
   ],
   "note": "Proved for every content, every sequence of requests and releases and every buffer size, when each read fills the space it is given until the end of the data and requests stay below 2^31. False otherwise: a read that returns less before the end is taken as end of data, and a request near 2^32 never returns; both shown by concrete witnesses."
  },
  {
   "property": "C29",
   "status": "partial",
   "theorems": [
    "Verif.IO.memory_output_partial",
    "Verif.IO.memory_output_wrap_false"
   ],
   "note": "Proved for every buffer and every sequence of writes whose total stays below 2^32. False beyond: the capacity test wraps around and the write leaves the buffer."
  },
  {
   "property": "C30",
   "status": "proved",
   "theorems": [
    "Verif.ParseBool.parseBool_false_iff"
   ],
   "note": "Every string, against an independent description of the accepted spellings."
  },
  {
   "property": "C31",
   "status": "proved",
   "theorems": [
    "Verif.Event.recording_sizes",
    "Verif.Event.recording_document_sizes"
   ],
   "note": "Every sequence of values with any announced lengths, containers below 2^31 elements (they are announced as int); strings up to their first NUL, blobs by content."
  },
  {
   "property": "C32",
   "status": "proved",
   "theorems": [
    "Verif.Event.msgpack_exact_headers"
   ],
   "note": "Every mixture of unknown and correct announced lengths; at the level of msgpack library calls."
  },
  {
   "property": "C33",
   "status": "partial",
   "theorems": [
    "Verif.Event.same_recordings_equal",
    "Verif.Event.isNaN_no_number",
    "Verif.Event.recordings_equal_iff_partial",
    "Verif.Event.recordings_equal_false"
   ],
   "note": "Same events compare equal: proved for all recordings. Converse proved for blob-free recordings whose events agree in type; false in general (integer 0 equals null one way round, blobs are not compared), shown by witnesses."
  },
  {
   "property": "C53",
   "status": "proved",
   "theorems": [
    "Verif.Event.msgpack_round_trip",
    "Verif.Event.msgpack_too_deep",
    "Verif.Event.nesting_steps"
   ],
   "note": "Relative to the msgpack library reproducing the packed objects as unpacker callbacks; nesting bounded by the library's reader stack (a parameter)."
  },
  {
   "property": "C34",
   "status": "proved",
   "theorems": [
    "Verif.Schema.validation_returns"
   ],
   "note": "Every schema, data value and loader, cyclic references included, with the recursion limit of the code. Regular expressions are a parameter that returns."
  },
  {
   "property": "C35",
   "status": "partial",
   "theorems": [
    "Verif.Schema.combinations_exact",
    "Verif.Schema.accepts_iff_valid",
    "Verif.Schema.within_limit",
    "Verif.Schema.not_beyond_limit_false"
   ],
   "note": "Proved for every schema whose evaluation stays within the recursion limit (shown for every reference-free schema nested less than 100 deep); false at the limit, where not accepts (witness proved)."
  },
  {
   "property": "C36",
   "status": "partial",
   "theorems": [
    "Verif.Schema.number_limits_exact_partial",
    "Verif.Schema.string_length_exact_partial",
    "Verif.Schema.array_limits_exact_partial",
    "Verif.Schema.object_limits_exact_partial",
    "Verif.Schema.multipleOf_negative_false",
    "Verif.Schema.multipleOf_negative_float_false",
    "Verif.Schema.multipleOf_zero_ub",
    "Verif.Schema.negative_maximum_false"
   ],
   "note": "Exact for finite numbers and natural-number sizes. False for negative size limits, negative values with an Unsigned divisor or a float divisor, and a zero divisor is undefined behaviour (witnesses proved)."
  },
  {
   "property": "C37",
   "status": "proved",
   "theorems": [
    "Verif.Schema.required_exact",
    "Verif.Schema.enum_exact",
    "Verif.Schema.unique_exact",
    "Verif.Schema.object_limits_exact_partial",
    "Verif.Schema.array_limits_exact_partial"
   ],
   "note": "Equality is the library's own; its properties are C21."
  },
  {
   "property": "C54",
   "status": "proved",
   "theorems": [
    "Verif.Schema.accepts_iff_valid",
    "Verif.Schema.type_exact",
    "Verif.Schema.type_list_exact"
   ],
   "note": "type names against an independent list of kinds (needs a long double of at least 64 significand bits for 'integer' on floats); the other keywords against the independent specification Schema/Spec.lean."
  },
  {
   "property": "C38",
   "status": "partial",
   "theorems": [
    "Verif.Ext.lookup_finds",
    "Verif.Ext.lookup_exact_partial",
    "Verif.Ext.lookup_exact_false",
    "Verif.Ext.pointer_malformed",
    "Verif.Ext.formPointer_leads_back_partial",
    "Verif.Ext.formPointer_slash_false"
   ],
   "note": "Looking up the pointer of an existing element finds it: all documents. Exactness for tokens that are either plain decimal numbers below 2^32 or cannot start a number; false for others (leading blanks, signs, modulo 2^32: witness). A pointer formed from a path leads back when no key contains / or ~; false otherwise (witness)."
  },
  {
   "property": "C39",
   "status": "partial",
   "theorems": [
    "Verif.Ext.edit_failed_unchanged",
    "Verif.Ext.add_exact_partial",
    "Verif.Ext.add_succeeds",
    "Verif.Ext.add_beyond_end_ub",
    "Verif.Ext.remove_exact_partial",
    "Verif.Ext.remove_item_false",
    "Verif.Ext.replace_exact_partial",
    "Verif.Ext.replace_succeeds",
    "Verif.Ext.move_exact_partial",
    "Verif.Ext.copy_exact_partial"
   ],
   "note": "A failed edit leaves the document as it was; a successful one has exactly the stated effect. Same restriction on tokens as C38. False: removing a list element always fails, adding beyond the end of a list is undefined behaviour (witnesses)."
  },
  {
   "property": "C40",
   "status": "partial",
   "theorems": [
    "Verif.Ext.patch_atomic_partial",
    "Verif.Ext.patch_applies_partial",
    "Verif.Ext.patch_succeeds",
    "Verif.Ext.patch_one",
    "Verif.Ext.patch_atomic_add_false",
    "Verif.Ext.patch_atomic_replace_false"
   ],
   "note": "All or nothing for every patch whose operations do not add or replace over an existing list element; false for those (witnesses). Successful patches have the effect of the operations in order, against an independent description."
  },
  {
   "property": "C41",
   "status": "partial",
   "theorems": [
    "Verif.Ext.diff_patch_partial",
    "Verif.Ext.diff_shrink_false",
    "Verif.Ext.diff_slash_false"
   ],
   "note": "For all documents without / or ~ in keys in which no list gets shorter; false otherwise (witnesses)."
  },
  {
   "property": "C42",
   "status": "partial",
   "theorems": [
    "Verif.Ext.diff_update_present_partial",
    "Verif.Ext.diff_update_others_partial",
    "Verif.Ext.diff_update_blank_partial",
    "Verif.Ext.diff_update_equal_false",
    "Verif.Ext.diff_update_null_false"
   ],
   "note": "Between maps: everything compare has that is not null and not a map is there afterwards; paths compare does not mention lead to the same as before; where compare has null or an empty map the base stays. False when two equal values are not maps (the result becomes an empty map) and for null under a missing key (becomes an empty map); witnesses proved."
  },
  {
   "property": "C43",
   "status": "partial",
   "theorems": [
    "Verif.Flat.flatten_expand_partial",
    "Verif.Flat.flatten_expand_equal_partial",
    "Verif.Flat.flatten_empty_key_false",
    "Verif.Flat.flatten_empty_container_false",
    "Verif.Flat.flatten_slash_false"
   ],
   "note": "Every map without empty containers and with plain, non-empty keys, for the default and any other single-character delimiter, with or without the simple-list option. False for the empty key (witness proved); the two exclusions in the property are shown necessary."
  },
  {
   "property": "C44",
   "status": "partial",
   "theorems": [
    "Verif.Payload.payload_layout",
    "Verif.Payload.payload_aligned_partial",
    "Verif.Payload.payload_nul_false"
   ],
   "note": "For every value, JSON header and starting position: on outputs that take at least 33 bytes of a block, the payload starts at a multiple of 32 right after a NUL. On any other output either that, or exactly the NUL is missing (payload_layout), which does happen: witness payload_nul_false."
  },
  {
   "property": "C45",
   "status": "partial",
   "theorems": [
    "Verif.Payload.payload_round_trip_partial",
    "Verif.Payload.serialize_payload_succeeds",
    "Verif.Payload.payload_empty_lost",
    "Verif.Payload.payload_same_path_false",
    "Verif.Payload.payload_null_false",
    "Verif.Payload.payload_list_false",
    "Verif.Payload.payload_msgpack_false"
   ],
   "note": "JSON headers, every value and payload, every input schedule, exact consumption; length paths through maps that part from the data path. False for empty payloads, equal paths, length paths through a null or a list, and MessagePack headers (witnesses proved)."
  },
  {
   "property": "C46",
   "status": "partial",
   "theorems": [
    "Verif.Uri.no_dot_segments",
    "Verif.Uri.dots_stable",
    "Verif.Uri.resolve_no_dots",
    "Verif.Uri.resolve_rfc_partial",
    "Verif.Uri.resolve_stable_partial",
    "Verif.Uri.dots_rfc_partial",
    "Verif.Uri.dots_rfc_false",
    "Verif.Uri.resolve_at_false",
    "Verif.Uri.resolve_stable_false"
   ],
   "note": "Every path: no '.' left, '..' only in front, stable when reapplied; every base and reference that can be taken apart: the path of the result has that form. The whole resolution agrees with RFC 3986 and is stable for references written out of components that can be told apart again and paths that do not climb above the root. False beyond: leading '..' stays, and an '@' after the authority hides dot segments (witnesses proved)."
  },
  {
   "property": "C47",
   "status": "proved",
   "theorems": [
    "Verif.Uri.unescape_inverts",
    "Verif.Uri.unescape_safe",
    "Verif.Uri.unescape_keeps",
    "Verif.Uri.unescape_lenient_false"
   ],
   "note": "Decoding inverts every percent encoding, never reads outside the text, and text without '%' is unchanged, for all inputs. Beyond the claim: a % followed by a sign or blank and a digit is decoded too (witness)."
  },
  {
   "property": "C48",
   "status": "partial",
   "theorems": [
    "Verif.Args.registrations_apart_partial",
    "Verif.Args.option_added_partial",
    "Verif.Args.option_refused_partial",
    "Verif.Args.failed_unchanged",
    "Verif.Args.short_above_255_false",
    "Verif.Args.empty_path_ub"
   ],
   "note": "Proved for every sequence of registrations, setter calls and switches of conflict resolution, failed registrations included, with short options up to 255. A successful registration adds exactly the requested entry; a refused one changes no entry and happens only on a real conflict. False for a short option of 257 and more, which takes the number of another option (witness proved); an empty path is undefined behaviour."
  },
  {
   "property": "C55",
   "status": "partial",
   "theorems": [
    "Verif.Guess.guess_string_iff",
    "Verif.Guess.guess_null_iff",
    "Verif.Guess.guess_bool_iff",
    "Verif.Guess.guess_integer_partial",
    "Verif.Guess.guess_printed",
    "Verif.Guess.guess_octal_partial",
    "Verif.Guess.guess_hex_partial",
    "Verif.Guess.guess_number",
    "Verif.Guess.guess_special",
    "Verif.Guess.guess_saturates_false",
    "Verif.Guess.guess_nul_false"
   ],
   "note": "Classification proved for every text without NUL, and the value for integers from -2^63 to 2^64-1 and octal and hexadecimal below 2^64. False beyond: integers out of range silently become the nearest limit, and text after a NUL is ignored (witnesses proved)."
  },
  {
   "property": "C56",
   "status": "partial",
   "theorems": [
    "Verif.Args.required_present_partial",
    "Verif.Args.required_config_never_returns",
    "Verif.Args.exclusive_partial",
    "Verif.Args.required_group_partial",
    "Verif.Args.required_group_ignored_false",
    "Verif.Args.count_in_group_false"
   ],
   "note": "For every sequence of registrations whose result paths are apart, every sequence of option events getopt can deliver, environment and (nested) configuration files. False for a required group that is not mutually exclusive (ignored), and counting entries count as given in a group (witnesses proved)."
  },
  {
   "property": "C57",
   "status": "partial",
   "theorems": [
    "Verif.Args.requirements_hold_partial",
    "Verif.Args.default_unchecked_false",
    "Verif.Args.config_value_dropped_false"
   ],
   "note": "Same quantifiers as C56. Defaults are not checked against the requirements, a value in a configuration file for a flag is dropped (witnesses proved). Non-finite numbers pass numeric limits."
  },
  {
   "property": "C58",
   "status": "partial",
   "theorems": [
    "Verif.Args.words_in_order_partial",
    "Verif.Args.later_words_win_partial",
    "Verif.Args.last_word",
    "Verif.Args.mentioned_flag",
    "Verif.Args.mentions_counted",
    "Verif.Args.appended_in_order",
    "Verif.Args.default_used_partial",
    "Verif.Args.default_in_group_partial",
    "Verif.Args.group_with_default_partial",
    "Verif.Args.flag_partial",
    "Verif.Args.choice_partial",
    "Verif.Args.null_word_default_false",
    "Verif.Args.env_flag_false",
    "Verif.Args.config_loop_false"
   ],
   "note": "Exact for command lines without configuration files; with configuration files, what follows the file on the command line wins. A default is used exactly if nothing else of the entry's mutually exclusive groups has a value; where several members of a group have defaults, only that exactly one member has a value. False: a word that is guessed as null leaves the default in force, a flag is set by its environment variable whatever that says, and a configuration file that names itself never ends (witnesses proved)."
  },
  {
   "property": "C59",
   "status": "proved",
   "theorems": [
    "Verif.Args.words_all_taken",
    "Verif.Args.one_word_each"
   ],
   "note": "Every sequence of registrations, every command line."
  },
  {
   "property": "C60",
   "status": "partial",
   "theorems": [
    "Verif.Args.nothing_else",
    "Verif.Args.words_in_order_partial",
    "Verif.Args.nested_paths_escape_false",
    "Verif.Args.second_parse_false"
   ],
   "note": "Proved for entries whose paths are not inside one another; false otherwise, and a second Parse with the same parser keeps values of the first (witnesses proved)."
  },
  {
   "property": "C61",
   "status": "partial",
   "theorems": [
    "Verif.Args.integer_word_partial",
    "Verif.Args.unsigned_word_partial",
    "Verif.Args.not_integer_refused",
    "Verif.Args.other_words",
    "Verif.Args.untyped_word",
    "Verif.Args.unsigned_minus_false",
    "Verif.Args.integer_saturates_false"
   ],
   "note": "Integers from -2^63 to 2^64-1 exactly, texts that are no integers refused, strings, booleans and numbers (strtod a parameter) as stated. False: integers out of range become the nearest limit, and a negative word for an unsigned option is taken modulo 2^64 (proved)."
  },
  {
   "property": "C62",
   "status": "proved",
   "theorems": [
    "Verif.Loader.add_keeps",
    "Verif.Loader.add_only_own",
    "Verif.Loader.add_defines",
    "Verif.Loader.lookup_keeps",
    "Verif.Loader.adv_adds",
    "Verif.Loader.forget_only",
    "Verif.Loader.forget_replaces",
    "Verif.Loader.list_id_unknown_false"
   ],
   "note": "Every loader state, URI and document. User supplied handlers are assumed to only add. Beyond the claim: ids inside lists are never registered (witness)."
  },
  {
   "property": "C63",
   "status": "partial",
   "theorems": [
    "Verif.Loader.refs_resolved",
    "Verif.Loader.ids_resolved",
    "Verif.Loader.enum_kept",
    "Verif.Loader.norm_only_refs",
    "Verif.Loader.enum_property_false",
    "Verif.Loader.default_changed_false"
   ],
   "note": "Every place outside enum and outside maps with a $ref. False: a property named enum is not normalised, and data such as default values with an id is changed (witnesses proved)."
  },
  {
   "property": "C64",
   "status": "partial",
   "theorems": [
    "Verif.Loader.reference_found",
    "Verif.Loader.reference_into_added",
    "Verif.Loader.document_found",
    "Verif.Loader.known_found",
    "Verif.Loader.unknown_throws",
    "Verif.Loader.local_reference",
    "Verif.Loader.own_id_false"
   ],
   "note": "Every chain of loaders, document, pointer and encoding, as long as the whole reference is not itself a registered id. False for a schema with its own id given directly to a validation: its references to itself throw (witness proved)."
  },
  {
   "property": "C65",
   "status": "partial",
   "theorems": [
    "Verif.Loader.file_only",
    "Verif.Loader.network_only",
    "Verif.Loader.fetched_known",
    "Verif.Loader.first_path_wins",
    "Verif.Loader.absolute_file_read",
    "Verif.Loader.dots_fragment_false",
    "Verif.Loader.handler_with_base_false",
    "Verif.Loader.empty_answer_ub"
   ],
   "note": "Every URI, file system and network. False: a URI with dot segments and a fragment is loaded but answered with null, the handler of a loader with a base is never called, and an empty network answer is undefined behaviour (proved)."
  },
  {
   "property": "C66",
   "status": "proved",
   "theorems": [
    "Verif.Defaults.defaults_keep",
    "Verif.Defaults.defaults_proper",
    "Verif.Defaults.null_kept",
    "Verif.Defaults.defaults_fail",
    "Verif.Defaults.one_of_all_used_false"
   ],
   "note": "Every schema, document, chain of loaders and outcome of a call that returns. The loader is taken to answer one reference always the same. Beyond the claim: the document need not be valid afterwards, all the defaults of a oneOf are used (witness)."
  },
  {
   "property": "C67",
   "status": "proved",
   "theorems": [
    "Verif.Defaults.defaults_only",
    "Verif.Defaults.no_defaults",
    "Verif.Defaults.padding_false"
   ],
   "note": "Every schema, document and chain of loaders; padding a list with nulls is part of the statement (witness)."
  },
  {
   "property": "C68",
   "status": "partial",
   "theorems": [
    "Verif.Defaults.defaults_filled",
    "Verif.Defaults.default_there",
    "Verif.Defaults.defaults_filled_all",
    "Verif.Defaults.null_document_false",
    "Verif.Defaults.items_first_only_false"
   ],
   "note": "Members and elements of lists reached through properties, items, combined schemas and references, at any depth (lists of fewer than 2^32 item schemas); an element before another one with a default may have become null on the way there, which hides what is below it. False for a document that is null (a default-constructed value) and for later elements of lists: a single schema in items is used for the first element only (witnesses proved)."
  },
  {
   "property": "C69",
   "status": "partial",
   "theorems": [
    "Verif.Defaults.second_call_partial",
    "Verif.Defaults.second_call_false"
   ],
   "note": "Proved when all the defaults are scalars other than null. False when a default is a map: the second call fills in the members of the map (witness proved)."
  },
  {
   "property": "C70",
   "status": "partial",
   "theorems": [
    "Verif.Defaults.call_ends",
    "Verif.Defaults.call_depth",
    "Verif.Defaults.call_never_ends_false"
   ],
   "note": "Proved for schemas without $ref. False for a schema that refers to itself: the call recurses without end (proved for {$ref: #})."
  },
  {
   "property": "C71",
   "status": "proved",
   "theorems": [
    "Verif.Bundle.header_read",
    "Verif.Bundle.header_fields",
    "Verif.Bundle.field_unique",
    "Verif.Bundle.last_line_false",
    "Verif.Bundle.bar_blank_false"
   ],
   "note": "Every sequence of bytes. Beyond the claim: a last line without a newline is ignored, and a blank behind the last bar makes a list of one a scalar (witnesses proved)."
  },
  {
   "property": "C72",
   "status": "partial",
   "theorems": [
    "Verif.Bundle.header_from_file_partial"
   ],
   "note": "Header and buffer together below 2^31 - 4096 bytes."
  },
  {
   "property": "C73",
   "status": "proved",
   "theorems": [
    "Verif.Bundle.header_written",
    "Verif.Bundle.header_document"
   ],
   "note": "Every value; the text of a double is a parameter."
  },
  {
   "property": "C74",
   "status": "partial",
   "theorems": [
    "Verif.Bundle.header_round_trip_partial",
    "Verif.Bundle.scalars_good",
    "Verif.Bundle.read_back_partial",
    "Verif.Bundle.newline_adds_member_false",
    "Verif.Bundle.hash_cuts_false",
    "Verif.Bundle.empty_item_lost_false",
    "Verif.Bundle.bar_makes_list_false",
    "Verif.Bundle.version_lost_false",
    "Verif.Bundle.colon_in_key_false",
    "Verif.Bundle.types_change_false"
   ],
   "note": "Proved for keys and texts without the signs of the format. False otherwise: a newline in a string adds members, text behind # is lost, empty items are lost, a bar makes a list, a member bundle.version is lost, a colon moves text from key to value, null, truth values and digits change their type (witnesses proved)."
  },
  {
   "property": "C75",
   "status": "proved",
   "theorems": [
    "Verif.Bundle.plain_round_trip"
   ],
   "note": "Every such map."
  },
  {
   "property": "C76",
   "status": "partial",
   "theorems": [
    "Verif.Bundle.guess_format_partial",
    "Verif.Bundle.guess_blank_false"
   ],
   "note": "Proved for every text with something other than blanks. False otherwise: for blanks only the bytes behind the end are read (proved for all of them). Modelled with XML and YAML compiled in."
  },
  {
   "property": "C77",
   "status": "partial",
   "theorems": [
    "Verif.Xml.plist_read",
    "Verif.Xml.bare_read",
    "Verif.Xml.says_one_thing",
    "Verif.Xml.items_one_thing",
    "Verif.Xml.comment_in_string_false",
    "Verif.Xml.comment_in_value_false",
    "Verif.Xml.value_as_key_false",
    "Verif.Xml.key_without_value_false"
   ],
   "note": "Proved for every document in which a scalar has one text at most. False where a comment splits the text of a scalar: two scalars are read (witnesses proved); outside the format a value is taken for a key and a key without value is dropped. libxml2 is modelled as the nodes it delivers."
  },
  {
   "property": "C78",
   "status": "partial",
   "theorems": [
    "Verif.Xml.lone_scalar_unread",
    "Verif.Xml.lone_word_read",
    "Verif.Xml.lone_word_unread",
    "Verif.Xml.lone_empty_string_read",
    "Verif.Xml.empty_plist_false"
   ],
   "note": "Decided for every scalar: null, true, false written as empty elements and empty strings are read; numbers, other strings, data and <true></true> throw, for all of them. <plist/> throws, <plist></plist> is null."
  },
  {
   "property": "C79",
   "status": "partial",
   "theorems": [
    "Verif.Xml.plist_defined_partial",
    "Verif.Xml.plist_defined_false",
    "Verif.Xml.comments_ignored"
   ],
   "note": "Proved for all node sequences whose texts have no '{'; <data>{</data> is undefined behaviour (proved)."
  },
  {
   "property": "C80",
   "status": "partial",
   "theorems": [
    "Verif.Xml.plist_written",
    "Verif.Xml.plist_written_false"
   ],
   "note": "Every value whose blobs have no empty slab and fit 32-bit sizes. An empty slab is undefined behaviour (proved)."
  },
  {
   "property": "C81",
   "status": "partial",
   "theorems": [
    "Verif.Xml.plist_round_trip_partial",
    "Verif.Xml.container_round_trip_partial",
    "Verif.Xml.plist_back_equal",
    "Verif.Xml.xmlChars_iff",
    "Verif.Xml.lone_round_trip_false",
    "Verif.Xml.blank_string_false",
    "Verif.Xml.blank_key_false",
    "Verif.Xml.control_character_false",
    "Verif.Xml.not_utf8_false",
    "Verif.Xml.nul_string_false",
    "Verif.Xml.empty_blob_false",
    "Verif.Xml.no_bytes_false"
   ],
   "note": "Proved for all values whose texts XML can carry, in a document, or as list or map without one. False: a lone scalar, blank texts, control characters, bytes that are no UTF-8, NUL, empty blobs (all proved)."
  },
  {
   "property": "C82",
   "status": "partial",
   "theorems": [
    "Verif.Xml.integer_read",
    "Verif.Xml.hex_read",
    "Verif.Xml.octal_read",
    "Verif.Xml.not_integer_zero"
   ],
   "note": "Every decimal, hexadecimal (0x) and octal (0) integer with any blanks before and any text behind; limits saturate; 2^63-1 depends on a stale errno. False: a text that is no number is 0, for all such texts (proved)."
  },
  {
   "property": "C83",
   "status": "partial",
   "theorems": [
    "Verif.Yaml.yaml_read_partial",
    "Verif.Yaml.yaml_read_first",
    "Verif.Yaml.yaml_read_iff",
    "Verif.Yaml.means_one",
    "Verif.Yaml.anchor_redefined_false",
    "Verif.Yaml.key_anchor_false",
    "Verif.Yaml.int_tag_false",
    "Verif.Yaml.key_text_false"
   ],
   "note": "Proved for every document that defines no anchor twice and none on a key; for all documents with the rules the library follows (first definition, no anchors on keys), in both directions. False: a redefined anchor keeps its first value and an anchor on a key is unknown (witnesses); tags other than binary make strings, and plain keys that look like numbers or null change. libyaml is modelled as the events it delivers."
  },
  {
   "property": "C84",
   "status": "partial",
   "theorems": [
    "Verif.Yaml.yaml_ends",
    "Verif.Yaml.yaml_defined_partial",
    "Verif.Yaml.binary_undefined_false",
    "Verif.Yaml.after_error_hangs",
    "Verif.Yaml.error_reached",
    "Verif.Yaml.after_exception_ub"
   ],
   "note": "Proved for every event sequence whose binary scalars can be decoded, on a fresh parser. False: binary data with a brace is undefined behaviour, a parser used again after a syntax error never returns, and after an exception inside a document handlers of a dead call are used (proved)."
  },
  {
   "property": "C85",
   "status": "proved",
   "theorems": [
    "Verif.LoadAll.iterators_are_positions",
    "Verif.LoadAll.values_one",
    "Verif.LoadAll.exception_keeps"
   ],
   "note": "A refinement: every history of operations on any number of iterators shows what positions in the sequence of values show, where advancing a default-constructed iterator is undefined behaviour. The parser is a parameter: any source of values that ends. One family of iterators per parser."
  },
  {
   "property": "C86",
   "status": "partial",
   "theorems": [
    "Verif.Yaml.yaml_documents_partial",
    "Verif.Yaml.yaml_documents",
    "Verif.Yaml.empty_stream_false",
    "Verif.Yaml.broken_stream_hangs",
    "Verif.JsonDrv.json_first_only"
   ],
   "note": "Proved for YAML streams of at least one document, none of them using anchors twice. False: an empty stream gives one null, a broken document is followed by an endless loop when iterating on, and for JSON only the first document is read (proved)."
  },
  {
   "property": "C87",
   "status": "partial",
   "theorems": [
    "Verif.Yaml.yaml_written_partial",
    "Verif.Yaml.yaml_written_all_partial",
    "Verif.Yaml.yaml_refused",
    "Verif.Yaml.yaml_written_false"
   ],
   "note": "For values whose texts libyaml takes and whose blobs have no empty slabs and fit the 32-bit sizes (an empty slab is undefined behaviour, proved). libyaml is modelled as the events it is given; texts end at their first NUL."
  },
  {
   "property": "C88",
   "status": "proved",
   "theorems": [
    "Verif.Yaml.yaml_well_formed",
    "Verif.Yaml.yaml_prefix",
    "Verif.Yaml.yaml_closed",
    "Verif.Yaml.yaml_two_values"
   ],
   "note": "libyaml's refusal of events in the wrong place is part of the model; it may refuse later than modelled."
  },
  {
   "property": "C89",
   "status": "partial",
   "theorems": [
    "Verif.Yaml.yaml_round_trip_partial",
    "Verif.Yaml.yaml_documents_round_trip_partial",
    "Verif.Yaml.yaml_back_equal",
    "Verif.Yaml.string_type_false",
    "Verif.Yaml.keys_merge_false",
    "Verif.Yaml.key_null_false",
    "Verif.Yaml.nul_false",
    "Verif.Yaml.yaml_refused"
   ],
   "note": "Proved for values whose strings and keys have no NUL, are UTF-8 and do not look like another scalar where libyaml writes them plain; equal if the doubles are read as they were. False: a word that looks like a scalar is not read back as a string (for all of them), the keys 01 and 1 become one, the key null becomes the empty key, a text ends at its first NUL (proved). libyaml is assumed to deliver what it was given."
  },
  {
   "property": "C90",
   "status": "partial",
   "theorems": [
    "Verif.Conv.cast_exact_partial",
    "Verif.Conv.cast_in_range",
    "Verif.Conv.cast_refused",
    "Verif.Conv.cast_text_overflow",
    "Verif.Conv.cast_wraps_false",
    "Verif.Conv.signed_char_false",
    "Verif.Conv.minus_unsigned_false"
   ],
   "note": "Proved for numbers that fit the type. False: integers that do not fit are wrapped without an exception, signed char goes through AsUnsigned and a negative double converted to unsigned wraps (proved). std::stringstream is modelled as reading digits; conversions of doubles beyond 64 bits are undefined behaviour."
  },
  {
   "property": "C91",
   "status": "partial",
   "theorems": [
    "Verif.Conv.text_same_integer",
    "Verif.Conv.integer_text_back",
    "Verif.Conv.text_same_truth",
    "Verif.Conv.float_exact",
    "Verif.Conv.vector_exact",
    "Verif.Conv.map_exact",
    "Verif.Conv.containers_back",
    "Verif.Conv.complex_forms",
    "Verif.Conv.complex_exact",
    "Verif.Conv.null_text_false",
    "Verif.Conv.null_vector_false"
   ],
   "note": "False for null: it is false while its text is true, and it converts to no vector and no map (proved). Floats as text are C127."
  },
  {
   "property": "C92",
   "status": "partial",
   "theorems": [
    "Verif.Conv.params_settable",
    "Verif.Conv.params_listed",
    "Verif.Conv.params_set_many",
    "Verif.Conv.params_restored",
    "Verif.Conv.params_failed",
    "Verif.Conv.params_constructed",
    "Verif.Conv.xml_writer_follows",
    "Verif.Conv.yaml_params_partial",
    "Verif.Conv.yaml_styles",
    "Verif.Conv.yaml_styles_written",
    "Verif.Conv.yaml_styles_read_false",
    "Verif.Conv.json_strict_false",
    "Verif.Conv.bundle_new_false",
    "Verif.Conv.indent_cut_false"
   ],
   "note": "Proved for JSON, XML and bundle headers, and for YAML without the styles. False: YAML styles read are constants, strict can be set on construction only, bundle headers ignore their constructor's parameters, counts beyond 32 bits are cut (proved). YAML indent and width reach libyaml on construction only, and the scalar style never does."
  },
  {
   "property": "C93",
   "status": "partial",
   "theorems": [
    "Verif.Ref.no_dangling_partial",
    "Verif.Ref.resolved_safe",
    "Verif.Ref.pointers_live",
    "Verif.Ref.grow_self_false",
    "Verif.Ref.reassign_self_false",
    "Verif.Ref.reassign_kept_false",
    "Verif.Ref.cyclic_false",
    "Verif.Ref.kept_target_false"
   ],
   "note": "Proved for variables and resolved references in every history in which no value contains itself; for unresolved references except the hazards named in Hazard, which are real: the witnesses run into freed memory (v[5] = v[0] when the list grows; an unresolved reference reassigned to itself or to what only it keeps; a value containing itself). Missing: what happens after a value was made to contain itself."
  },
  {
   "property": "C94",
   "status": "partial",
   "theorems": [
    "Verif.Ref.refers_forever",
    "Verif.Ref.refers_var",
    "Verif.Ref.dead_stays",
    "Verif.Ref.invalid_stays",
    "Verif.Ref.exists_ref",
    "Verif.Ref.exists_proxy",
    "Verif.Ref.through_ref",
    "Verif.Ref.invalid_throws",
    "Verif.Ref.put_look",
    "Verif.Ref.assign_look",
    "Verif.Ref.append_refs",
    "Verif.Ref.insert_refs",
    "Verif.Ref.ref_refers",
    "Verif.Ref.ref_refers_path",
    "Verif.Ref.path_refers",
    "Verif.Ref.path_refers_path",
    "Verif.Ref.at_refers",
    "Verif.Ref.at_refers_new",
    "Verif.Ref.at_wrong",
    "Verif.Ref.at_refers_path",
    "Verif.Ref.atPath_refers",
    "Verif.Ref.atPath_refers_new",
    "Verif.Ref.atPath_refers_path"
   ],
   "note": "Proved in every history in which no value contains itself before an operation; missing: what happens after a value was made to contain itself."
  },
  {
   "property": "C95",
   "status": "partial",
   "theorems": [
    "Verif.Ref.storage_exact_partial",
    "Verif.Ref.objects_exact_partial",
    "Verif.Ref.nothing_left_partial",
    "Verif.Ref.owner_exists",
    "Verif.Ref.leak_false"
   ],
   "note": "False for values that contain themselves: they are never freed (witness proved). Proved for all other histories."
  },
  {
   "property": "C96",
   "status": "partial",
   "theorems": [
    "Verif.Ref.at_refers_new",
    "Verif.Ref.atPath_refers_new",
    "Verif.Ref.look_path",
    "Verif.Ref.look_no_path",
    "Verif.Ref.put_creates",
    "Verif.Ref.kept_target_false"
   ],
   "note": "Proved in every history in which no value contains itself before an operation, for references whose target does not lie in what only the reference keeps (kept_target_false is the witness that these do run into freed memory). Missing: what happens after a value was made to contain itself."
  },
  {
   "property": "C97",
   "status": "partial",
   "theorems": [
    "Verif.Ref.is_unique",
    "Verif.Ref.is_exists",
    "Verif.Ref.look_is",
    "Verif.Ref.elem_is",
    "Verif.Ref.path_is",
    "Verif.Ref.put_is",
    "Verif.Ref.assign_is",
    "Verif.Ref.erase_is",
    "Verif.Ref.clear_is",
    "Verif.Ref.append_is",
    "Verif.Ref.set_is",
    "Verif.Ref.list_shared_false",
    "Verif.Ref.text_shared_false"
   ],
   "note": "Proved for variables and references to something that exists, in every history in which no value contains itself before an operation. Append and Set of what lies in the container itself are in the scope of the other objects only where they share nothing. False of the documentation: a text is shared by assignment too, Clear of one clears the other (witness). References that stand for something missing are C96."
  },
  {
   "property": "C98",
   "status": "partial",
   "theorems": [
    "Verif.Ref.copy_is",
    "Verif.Ref.copy_equal",
    "Verif.Ref.copy_changed",
    "Verif.Ref.copied_changed",
    "Verif.Ref.copy_append",
    "Verif.Ref.copy_cycle_false"
   ],
   "note": "Proved in every history in which no value contains itself. False for a value that contains itself: copying it does not end (witness: the recursion exhausts the stack, which is undefined behaviour)."
  },
  {
   "property": "C99",
   "status": "partial",
   "theorems": [
    "Verif.Args.generated_schema_accepts_partial",
    "Verif.Args.default_rejected_false",
    "Verif.Args.filled_list_rejected_false"
   ],
   "note": "Proved for parsers whose paths consist of keys (at most 95 of them) and do not lie within each other, that read no configuration file, whose settings are as the setters make them and whose defaults their entries could be given. False without the last: a default is not checked against the limits (witness); and where paths have indices: an element that was not given is filled with null, which the schema rejects (witness)."
  },
  {
   "property": "C100",
   "status": "partial",
   "theorems": [
    "Verif.Args.generated_schema_iff_partial",
    "Verif.Args.append_not_list_false",
    "Verif.Args.nan_integer_false"
   ],
   "note": "An equivalence, for the parsers of C99. Findings: the value of an appending entry is accepted if it is no list at all, because the schema names no type (witness); NaN and infinities are accepted as integers and as numbers within any limits (witness)."
  },
  {
   "property": "C101",
   "status": "partial",
   "theorems": [
    "Verif.Schema.entry_from_text",
    "Verif.Schema.check_total",
    "Verif.Schema.accepted_proper",
    "Verif.Schema.proper_accepted_partial",
    "Verif.Schema.named_proper",
    "Verif.Schema.proper_named_partial",
    "Verif.Schema.deep_schema_false"
   ],
   "note": "That the check always comes to a result, and that what it accepts is a schema (nested at most 51 deep), is proved for all values. That schemas are accepted is proved up to a nesting of 19; false for deeper ones, because checking one level of a schema takes up to five of the validator's 100 levels (witness: 52 times not). The schema of schemas is the text in the source, parsed by the modelled JSON parser and normalised by the modelled loader; the kernel evaluates this."
  },
  {
   "property": "C102",
   "status": "partial",
   "theorems": [
    "Verif.Schema.accepted_works_partial",
    "Verif.Schema.dangling_reference_false",
    "Verif.Schema.divisibleBy_zero_false",
    "Verif.Schema.bad_pattern_false",
    "Verif.Schema.huge_size_false"
   ],
   "note": "Proved for schemas without references and with what the schema of schemas does not look at in order (Checked in Schema/MetaSpec). False without, each with a witness: a reference to a missing schema throws; divisibleBy, a keyword of an older draft, may be 0, which divides by zero; a name in patternProperties need not compile, which is a schema error; a size may be beyond 64 bits, which is an undefined conversion."
  },
  {
   "property": "C103",
   "status": "partial",
   "theorems": [
    "Verif.Args.description_total",
    "Verif.Args.merge_adds_partial",
    "Verif.Args.merge_rebuilds_partial",
    "Verif.Args.argument_in_group_false",
    "Verif.Args.short_lost_false",
    "Verif.Args.negative_short_false",
    "Verif.Args.blob_lost_false",
    "Verif.Args.empty_last_key_false",
    "Verif.Args.unsigned_lost_false",
    "Verif.Args.empty_keypath_false",
    "Verif.Args.bad_action_false",
    "Verif.Args.not_required_false"
   ],
   "note": "Proved for parsers of which the description loses nothing (Describable in Args/DescUnion). False without, each with a witness: a group with a positional argument makes Merge throw; short options beyond ASCII are lost; an option named by a negative number only is described but not accepted; type blob turns into any type; a key path that ends in an empty key changes; unsigned options become signed. Further findings with witnesses: an empty key path in a description is undefined behaviour, a misspelt action is accepted and makes GetDescription throw, Required(false) makes an option required. Values are trees: sharing between a description and the parser is not modelled."
  },
  {
   "property": "C104",
   "status": "proved",
   "theorems": [
    "Verif.Args.setter_shown",
    "Verif.Args.option_shown",
    "Verif.Args.argument_shown",
    "Verif.Args.group_setter_shown",
    "Verif.Args.group_shown",
    "Verif.Args.member_shown",
    "Verif.Args.no_member"
   ],
   "note": "What each call shows is the table Setter.shown, newShown, PCall.groupKey in the statement files; it records that Required(false) shows true, as the code does. Short options above 255 are out of scope."
  },
  {
   "property": "C105",
   "status": "proved",
   "theorems": [
    "Verif.Args.validate_iff",
    "Verif.Args.validate_total",
    "Verif.Args.validate_finds",
    "Verif.Args.validate_sane",
    "Verif.Args.arg_read",
    "Verif.Args.no_choices_false",
    "Verif.Args.same_choices_false",
    "Verif.Args.null_choice_false",
    "Verif.Args.nameless_option_false",
    "Verif.Args.good_description_false",
    "Verif.Args.members_twice_false"
   ],
   "note": "The form is DescriptionOk in Args/ValidateSpec; arg_read says that the schema used is what the JSON reader makes of the text in the source. long double has at least 64 bits of precision; fewer than 2^32 choices for validate_sane; the text of the exception is not modelled. Findings with witnesses: SetChoices and AddChoice take choices that Validate rejects, AddOption takes an option that has no name, a description of good form can give a parser that is not valid, and the schema's unique is no keyword, so members may repeat."
  },
  {
   "property": "C106",
   "status": "partial",
   "theorems": [
    "Verif.Args.help_lays_out",
    "Verif.Args.help_shows_once",
    "Verif.Args.advanced_help_shows_all",
    "Verif.Args.basic_help_hides",
    "Verif.Args.entry_shows",
    "Verif.Args.tokens_injective",
    "Verif.Args.usage_allows",
    "Verif.Args.help_is_printed",
    "Verif.Args.advanced_group_hides_false",
    "Verif.Args.usage_allows_false"
   ],
   "note": "The layout is Args/HelpSpec; how a usage is read is UsageForm. What is printed before an exception is not modelled; the stream takes all output; short options above 255 are out of scope; a blob as default is left out of help_is_printed. Findings with witnesses: a group marked as advanced but without title and description hides nothing; with 0 < maxArgs < minArgs the usage allows numbers of words that Parse refuses."
  },
  {
   "property": "C107",
   "status": "partial",
   "theorems": [
    "Verif.Args.help_is_known",
    "Verif.Args.help_text_fixed",
    "Verif.Args.help_wins",
    "Verif.Args.help_exits",
    "Verif.Args.help_exits_false",
    "Verif.Args.adv_help_known_false"
   ],
   "note": "help_exits leaves the possibility of undefined behaviour in what follows the help option (a conversion out of range), as everywhere in Parse; the option numbers are what getopt_long returns. Findings with witnesses: a list as a choice makes --help end in an exception that leaves Parse; an option of the program with the long name help takes away --adv-help as well."
  },
  {
   "property": "C108",
   "status": "partial",
   "theorems": [
    "Verif.Args.line_read_partial",
    "Verif.Args.line_unique_partial",
    "Verif.Args.line_accepted_partial",
    "Verif.Args.spellings_partial",
    "Verif.Args.line_rest_partial",
    "Verif.Args.colon_option_false",
    "Verif.Args.question_option_false",
    "Verif.Args.plus_option_false",
    "Verif.Args.equals_option_false"
   ],
   "note": "Partial because of the names: AddOption accepts short options + - : ; ? and long names with =, and then the property is false (witnesses). getopt_long is not part of the repository; it is modelled after the GNU C library."
  },
  {
   "property": "C109",
   "status": "partial",
   "theorems": [
    "Verif.BlobLife.buffers_released",
    "Verif.BlobLife.created_blob",
    "Verif.BlobLife.copied_blob",
    "Verif.BlobLife.access_safe",
    "Verif.BlobLife.operations_partial",
    "Verif.BlobLife.copies_freed_partial",
    "Verif.BlobLife.create_failure_false",
    "Verif.BlobLife.copy_leaks_false",
    "Verif.BlobLife.empty_blob_false",
    "Verif.BlobLife.failed_assignment_false"
   ],
   "note": "Partial because of what happens when memory runs out (witnesses): after an exception from Create the caller cannot know whether the buffers were released; CreateCopy loses its memory if the Blob cannot be allocated; assigning a blob to a variant can leave the variant with a type and no value. An empty BlobPtr in a variant makes Size undefined. One thread; shared_ptr is modelled by its counter; references (Ref) are in C79 and its neighbours."
  },
  {
   "property": "C110",
   "status": "proved",
   "theorems": [
    "Verif.Tool.input_format",
    "Verif.Tool.output_format",
    "Verif.Args.group_with_default_partial",
    "Verif.Args.choice_partial"
   ],
   "note": "The parser of varsh is modelled call by call without its help texts; the theorems about groups are for every parser. What getopt_long makes of the words is C108; here the options are what it returns."
  },
  {
   "property": "C111",
   "status": "partial",
   "theorems": [
    "Verif.Tool.does_what_is_asked",
    "Verif.Tool.command_line",
    "Verif.Tool.parameters",
    "Verif.Tool.one_action",
    "Verif.Tool.put_in",
    "Verif.Tool.set_null_false",
    "Verif.Tool.file_name_false"
   ],
   "note": "The behaviour is proved for every accepted command line and any library; that a null given on the command line is put in, and that the file named is the one read, are false and refuted. Files that cannot be opened and losing buffered output at exit are not modelled."
  },
  {
   "property": "C112",
   "status": "partial",
   "theorems": [
    "Verif.Schema.error_explained",
    "Verif.Schema.schema_error_explained",
    "Verif.Schema.single_error",
    "Verif.Schema.data_path",
    "Verif.Schema.schema_path_leads",
    "Verif.Schema.schema_path_partial",
    "Verif.Schema.schema_error_leads",
    "Verif.Schema.report_verdict",
    "Verif.Schema.report_agrees",
    "Verif.Schema.schemaReport_report",
    "Verif.Schema.user_data_path",
    "Verif.Schema.judge_alone",
    "Verif.Schema.ref_path_false",
    "Verif.Schema.type_path_false"
   ],
   "note": "What is at fault is said by Reach, Fault and Defect in Schema/ReportSpec. The verdicts of schemas inside are those reached at that nesting; judge_alone: below the limit they are those of the schemas on their own. Partial because the schema path exists in the schema given only when there are no references (refuted otherwise), and because of type[0]. The texts of the messages are not modelled."
  },
  {
   "property": "C113",
   "status": "partial",
   "theorems": [
    "Verif.Schema.printed",
    "Verif.Schema.print_tells_partial",
    "Verif.Schema.every_error_printed",
    "Verif.Schema.every_schema_error_printed",
    "Verif.Schema.only_errors_printed",
    "Verif.Schema.printed_data_path",
    "Verif.Schema.print_empty",
    "Verif.Schema.path_text",
    "Verif.Schema.alternatives_false",
    "Verif.Schema.line_end_false"
   ],
   "note": "The text determines the errors, their depths, messages and paths for one-line messages and paths without the path of one empty key; that it tells alternatives apart, and that line ends in keys do no harm, are false and refuted. The messages are any texts. Printing to a stream that fails is not modelled."
  },
  {
   "property": "C114",
   "status": "partial",
   "theorems": [
    "Verif.Event.random_played",
    "Verif.Event.random_exactly",
    "Verif.Event.random_recording",
    "Verif.Event.random_possible",
    "Verif.Event.random_returns",
    "Verif.Event.fuel_enough",
    "Verif.Event.random_keys_false",
    "Verif.Event.random_blobs_false"
   ],
   "note": "The numbers rand() returns are any list of numbers up to 2^31 - 1; the doubles are a product given as a parameter. Partial only because disallowed strings occur as keys and blobs never occur: both refuted. That 1 << 31 and isprint of negative characters do what they do with glibc is assumed."
  },
  {
   "property": "C115",
   "status": "partial",
   "theorems": [
    "Verif.Sink.json_beginning",
    "Verif.Sink.json_file_beginning",
    "Verif.Sink.json_all_taken",
    "Verif.Sink.serialize_all_taken",
    "Verif.Sink.json_memory",
    "Verif.Sink.json_file_partial",
    "Verif.Sink.json_ends_false",
    "Verif.Sink.json_disk_false",
    "Verif.Sink.once_all_partial",
    "Verif.Sink.once_lost_false",
    "Verif.Sink.once_hole_false"
   ],
   "note": "The output is any function of the calls made, the bytes taken and those safe. Partial because false of the code: emitting does not end on a stream that takes no more (json_ends_false), errors of the last flush are lost (json_disk_false), and the MessagePack emitter ignores short writes (once_lost_false, once_hole_false; once_all_partial says when it is right). The YAML and XML emitters write through libraries and are not covered here."
  },
  {
   "property": "C116",
   "status": "partial",
   "theorems": [
    "Verif.Dispatch.emitter_format",
    "Verif.Dispatch.parser_ends",
    "Verif.Dispatch.parser_format",
    "Verif.Dispatch.same_format",
    "Verif.Dispatch.guess_format",
    "Verif.Dispatch.guess_nothing",
    "Verif.Dispatch.unknown_false",
    "Verif.Dispatch.guess_all_false"
   ],
   "note": "All numbers as types and all eight combinations of compiled-in formats. Partial because false of the code: unknown types are read as YAML, and bundle headers and MessagePack are never guessed."
  },
  {
   "property": "C117",
   "status": "proved",
   "theorems": [
    "Verif.Num.float_result",
    "Verif.Num.float_nearest",
    "Verif.Num.round_tie",
    "Verif.Num.float_exact",
    "Verif.Num.float_overflow",
    "Verif.Num.int_exact",
    "Verif.Num.float_rem",
    "Verif.Num.float_nan",
    "Verif.Num.float_sign",
    "Verif.Num.float_infinite",
    "Verif.Num.float_commutes",
    "Verif.Num.float_held",
    "Verif.Num.float_add_mono",
    "Verif.Num.float_steps",
    "Verif.Num.double_held",
    "Verif.Num.double_same",
    "Verif.Num.value_op",
    "Verif.Num.integers_same",
    "Verif.Num.add_grouped_false",
    "Verif.Num.double_nearest_false"
   ],
   "note": "Rounding is defined on rational numbers and proved to give the nearest number of a format (bits of the significand, smallest and largest exponent), ties to even, with subnormal numbers, and infinity above the largest number. The two things the statement calls false are refuted: double rounding when a result is taken as a double (double_nearest_false), sums depend on grouping (add_grouped_false)."
  },
  {
   "property": "C118",
   "status": "partial",
   "theorems": [
    "Verif.Reset.json_reset",
    "Verif.Reset.json_no_reset",
    "Verif.Reset.msgpack_reset",
    "Verif.Reset.bundle_reset",
    "Verif.Reset.xml_reset",
    "Verif.Reset.xml_reset_document",
    "Verif.Reset.xml_reset_false",
    "Verif.Reset.xml_reset_value_false"
   ],
   "note": "JSON, MessagePack and bundle headers: proved in full. Property lists: proved for every input if no handlers are left, and for documents in a plist element whatever is left; false otherwise (xml_reset_false: an old handler is called through a dangling pointer; xml_reset_value_false: whether a value outside a plist element is read depends on what was left). The bytes the XML and YAML libraries read ahead, which Reset loses, are not part of the model; YAML parsers used again are C84."
  },
  {
   "property": "C119",
   "status": "proved",
   "theorems": [
    "Verif.IO.stream_reads",
    "Verif.IO.memory_reads",
    "Verif.IO.pieces_join",
    "Verif.IO.piece_empty"
   ],
   "note": "Sizes of 2^31 and more, which no library asks for, run into C28's stream_large_request_hangs."
  },
  {
   "property": "C120",
   "status": "partial",
   "theorems": [
    "Verif.IO.file_reads_partial",
    "Verif.IO.file_error_iff",
    "Verif.IO.file_error_false"
   ],
   "note": "False of the code: ParserFileInput::Read returns the bytes before the error, and GetPtr takes the short read for the end (file_error_false). Proved: what is read is always the next part of the file, exceptions come only where fewer bytes are left than asked for, and reading by blocks reports the error exactly if 8192 divides the number of bytes before it."
  },
  {
   "property": "C121",
   "status": "partial",
   "theorems": [
    "Verif.Args.program_name_partial",
    "Verif.Args.program_name_root",
    "Verif.Args.lastOf_unique",
    "Verif.Args.name_from_system_false"
   ],
   "note": "basename is that of libgen.h (glibc). False of the code: the path the system knows is never used, because the answer of readlink is compared with 0 (name_from_system_false); the rest is proved. Paths of slashes only are program_name_root."
  },
  {
   "property": "C122",
   "status": "partial",
   "theorems": [
    "Verif.PBundle.bundle_written",
    "Verif.PBundle.bundle_refused",
    "Verif.PBundle.bundle_round_trip_partial",
    "Verif.PBundle.bundle_from_file_partial",
    "Verif.PBundle.plain_came_back",
    "Verif.PBundle.default_paths",
    "Verif.PBundle.empty_payload_false",
    "Verif.PBundle.long_header_reads_outside",
    "Verif.PBundle.no_nul_reads_outside"
   ],
   "note": "Outputs that take every block whole. Partial because false of the code: an empty payload comes back as no payload (empty_payload_false), a header that does not fit in the buffer of a file input makes ProxyInput read behind the buffer (long_header_reads_outside), and so does memory without a NUL (no_nul_reads_outside). Other members are those a bundle header gives back (C73-C75); payloads of 2^32 bytes and more are not covered."
  },
  {
   "property": "C123",
   "status": "proved",
   "theorems": [
    "Verif.PathErr.breaks_iff",
    "Verif.PathErr.get_throws",
    "Verif.PathErr.set_throws",
    "Verif.PathErr.set_there",
    "Verif.PathErr.erase_throws",
    "Verif.PathErr.erase_there",
    "Verif.PathErr.append_throws"
   ],
   "note": "Reads like the specification lookupErr, storeErr, eraseErr, which look only at the value where the path breaks off and at what follows. Running out of memory is not modelled."
  },
  {
   "property": "C124",
   "status": "proved",
   "theorems": [
    "Verif.Dec.double_read_back",
    "Verif.Dec.infinity_read_back",
    "Verif.Dec.double_text_injective",
    "Verif.Dec.float_law",
    "Verif.Dec.json_exact",
    "Verif.Dec.xml_exact",
    "Verif.Dec.yaml_exact",
    "Verif.Dec.header_double",
    "Verif.Dec.header_doubles",
    "Verif.Dec.bundle_exact",
    "Verif.Dec.payload_exact",
    "Verif.Dec.sixteen_digits_false"
   ],
   "note": "The C++ library's printing (%#.*g) and strtod are modelled as correctly rounding in both directions, to nearest with ties to even, as glibc does, in the C locale. float_law: these satisfy what C01 takes as a hypothesis. The texts of property lists and YAML are restricted as in C81 and C89."
  },
  {
   "property": "C125",
   "status": "proved",
   "theorems": [
    "Verif.Msg.message_tells",
    "Verif.Msg.typeName_injective",
    "Verif.Msg.key_named",
    "Verif.Msg.type_named",
    "Verif.Msg.getPathR_spec"
   ],
   "note": "In a build without ENABLE_STACKTRACE. BadPathError and InvalidReferenceError with a text given by the caller are that text. getPathR_spec: the lookup with full exceptions is the one of C123."
  },
  {
   "property": "C126",
   "status": "partial",
   "theorems": [
    "Verif.Sink.payload_memory",
    "Verif.Sink.payload_whole",
    "Verif.Sink.payload_beginning",
    "Verif.Sink.payload_all_taken_partial",
    "Verif.Sink.payload_nul_lost_false",
    "Verif.Sink.payload_document"
   ],
   "note": "For JSON headers. Proved in full for outputs that take a block whole or throw, memory among them. False for others: the loop that writes the padding stops one byte early, so an output that takes all but the last byte of it gets no NUL, and the call returns (payload_nul_lost_false); nothing else is ever lost (payload_all_taken_partial)."
  },
  {
   "property": "C127",
   "status": "partial",
   "theorems": [
    "Verif.Dec.text_comes_back",
    "Verif.Dec.short_comes_back",
    "Verif.Dec.zero_comes_back",
    "Verif.Dec.tiny_comes_back",
    "Verif.Dec.double_comes_near",
    "Verif.Dec.digits_lost_false",
    "Verif.Dec.rounded_twice_false",
    "Verif.Dec.infinity_text_false"
   ],
   "note": "Sameness is false: AsString prints six digits (1234567.0 comes back as 1234570), infinity and NaN come back as no number, and a text is rounded twice, to long double and then to double, so that even 0.002877 comes back as the next double. Proved: doubles with no more than six decimal digits and zeros come back exactly; all others from 2^-1050 to the largest double come back with the same text and within a hundred-thousandth. Below that doubles come back within a 99999th, and exactly below 2^-1058. Missing: that the text is the same from 2^-1058 to 2^-1050."
  },
  {
   "property": "C128",
   "status": "partial",
   "theorems": [
    "Verif.Event.print_tells",
    "Verif.Event.print_tells_false"
   ],
   "note": "False of blobs, which are all printed alike, and of doubles that agree to six digits (witnesses). Proved of all other pairs; print_tells says exactly which events have the same text."
  },
  {
   "property": "C129",
   "status": "partial",
   "theorems": [
    "Verif.Args.option_named",
    "Verif.Args.missing_named",
    "Verif.Args.registered_named_partial",
    "Verif.Args.limit_named",
    "Verif.Args.limit_counts",
    "Verif.Args.named_alike_false"
   ],
   "note": "option_named says exactly which entries have the same name. False of options with a negative short option and no long one, which AddOption accepts although nobody can give them: two of them have the same name, ending in a byte that is no character. Missing: short options above 255 (see C48), and positional arguments among themselves, whose titles can be set alike; and limits with infinite numbers."
  },
  {
   "property": "C130",
   "status": "partial",
   "theorems": [
    "Verif.Flat.flatten_texts_partial",
    "Verif.Flat.flatten_texts_succeeds",
    "Verif.Flat.list_told",
    "Verif.Flat.flatten_texts_false",
    "Verif.Flat.list_told_false"
   ],
   "note": "Every map whose keys are plain (not empty and without characters that mean something in paths), any parameters as in C43 and any text of Floats. False of keys with the delimiter, where a leaf is lost, and of empty lists and elements with the list delimiter, which cannot be told apart (witnesses)."
  },
  {
   "property": "C131",
   "status": "proved",
   "theorems": [
    "Verif.Conv.path_into",
    "Verif.Conv.key_into",
    "Verif.Conv.integers_into",
    "Verif.Conv.int_comes_back",
    "Verif.Conv.vector_comes_back",
    "Verif.Conv.into_checked"
   ],
   "note": "For every type, given that the default comes back from a variant; that is proved for every integer type and vectors of things that come back."
  }
 ]
}