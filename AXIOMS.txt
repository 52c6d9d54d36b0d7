Verif.PathM.parsePath_pathString: propext, Classical.choice, Quot.sound
Verif.PathM.parsePath_pathString_iff: propext, Classical.choice, Quot.sound
Verif.PathM.parsePath_pathString_trailing_empty: propext, Classical.choice, Quot.sound
Verif.PathM.pathString_injective: propext, Classical.choice, Quot.sound
Verif.PathM.parsePath_total: propext, Quot.sound
Verif.Blob.compare_firstDiff: propext, Classical.choice, Quot.sound
Verif.Blob.compare_eq_iff_partial: propext, Classical.choice, Quot.sound
Verif.Blob.compare_eq_iff_prefix: propext, Classical.choice, Quot.sound
Verif.Blob.compare_distinguishes_false: propext, Classical.choice, Quot.sound
Verif.Blob.createCopy_faithful_partial: propext, Classical.choice, Quot.sound
Verif.Blob.copy_independent: propext, Quot.sound
Verif.Blob.createCopy_wrap_ub: Quot.sound
Verif.B64.decode_encode: propext, Classical.choice, Quot.sound
Verif.B64.encode_rfc4648: propext, Classical.choice, Quot.sound
Verif.B64.encode_segmentation: propext, Classical.choice, Quot.sound
Verif.B64.encode_empty_slab_ub: propext, Classical.choice, Quot.sound
Verif.B64.encode_fits_partial: propext, Classical.choice, Quot.sound
Verif.B64.decode_fits_partial: propext, Quot.sound
Verif.B64.encode_fits_false: propext, Classical.choice, Quot.sound
Verif.B64.decode_total_partial: propext, Quot.sound
Verif.B64.decode_ignores: propext, Quot.sound
Verif.B64.decode_total_false: propext, Quot.sound
Verif.JsonDrv.chunking_independent: propext, Quot.sound
Verif.JsonTok.tokenizer_safe: propext, Classical.choice, Quot.sound
Verif.JsonTok.step_R: propext, Classical.choice, Quot.sound
Verif.JsonDrv.parser_safe_partial: propext, Classical.choice, Quot.sound
Verif.JsonDrv.parser_safe_bracket_partial: propext, Classical.choice, Quot.sound
Verif.JsonDrv.parser_safe_false: propext, Classical.choice, Quot.sound
Verif.JsonTok.parse_buffer_refines: propext, Classical.choice, Quot.sound
Verif.JsonTok.mode_stack_refines: propext, Quot.sound
Verif.JsonTok.literals_complete_partial: propext, Classical.choice, Quot.sound
Verif.JsonTok.literals_complete_false: propext, Classical.choice, Quot.sound
Verif.JsonTok.tokenizer_bracketed: propext, Classical.choice, Quot.sound
Verif.JsonDrv.parser_bracketed: propext, Classical.choice, Quot.sound
Verif.JsonDrv.deserialize_bracketed: propext, Classical.choice, Quot.sound
Verif.Build.build_document: propext, Classical.choice, Quot.sound
Verif.Build.build_bare: propext, Classical.choice, Quot.sound
Verif.Build.build_replay: propext, Classical.choice, Quot.sound
Verif.Build.denotes_exists_unique: propext, Classical.choice, Quot.sound
Verif.setPath_getPath: propext, Classical.choice, Quot.sound
Verif.Heap.setPath_reads_back: propext, Quot.sound
Verif.Heap.setPath_cyclic_false: propext
Verif.setPath_below: propext, Classical.choice, Quot.sound
Verif.Heap.set_level: propext, Classical.choice, Quot.sound
Verif.Heap.get_level: propext
Verif.setPath_frame: propext, Classical.choice, Quot.sound
Verif.setPath_failed_unchanged_partial: propext, Classical.choice, Quot.sound
Verif.setPath_failed_unchanged_false: propext
Verif.hasPath_getPath_agree: propext, Quot.sound
Verif.contains_get_agree: propext
Verif.erasePath_key_gone: propext, Classical.choice, Quot.sound
Verif.erase_index: propext, Quot.sound
Verif.erasePath_at: propext, Classical.choice, Quot.sound
Verif.erasePath_frame: propext, Classical.choice, Quot.sound
Verif.erasePath_prune_keeps_partial: propext, Classical.choice, Quot.sound
Verif.erasePath_failed_unchanged: propext, Classical.choice, Quot.sound
Verif.erasePath_prune_false: propext
Verif.Heap.erase_level: propext, Classical.choice, Quot.sound
Verif.setPath_only_null_converts: propext, Classical.choice, Quot.sound
Verif.setPath_wrong_type_throws: propext, Classical.choice, Quot.sound
Verif.setElem_only_null_converts: propext, Classical.choice, Quot.sound
Verif.append_only_null_converts: propext, Quot.sound
Verif.Heap.append_level: propext, Classical.choice, Quot.sound
Verif.chain_read_unchanged: propext, Classical.choice, Quot.sound
Verif.chain_assign_eq_setPath: propext, Classical.choice, Quot.sound
Verif.atPath_spec: propext, Classical.choice, Quot.sound
Verif.Heap.copy_independent: propext, Classical.choice, Quot.sound
Verif.Heap.copy_reads_same: propext, Classical.choice, Quot.sound
Verif.Heap.assign_shares: propext, Quot.sound
Verif.Heap.assign_scalar_separate: propext, Quot.sound
Verif.veq_refl: propext, Classical.choice, Quot.sound
Verif.veq_symm: propext, Classical.choice, Quot.sound
Verif.veq_trans_partial: propext, Classical.choice, Quot.sound
Verif.veq_deepCopy: propext, Classical.choice, Quot.sound
Verif.veq_trans_blob_false: propext, Classical.choice, Quot.sound
Verif.veq_nan_false: propext, Quot.sound
Verif.int_compare_by_value: propext, Classical.choice, Quot.sound
Verif.int_compare_53_false: propext, Quot.sound
Verif.integer_arithmetic_exact_partial: propext, Classical.choice, Quot.sound
Verif.integer_arithmetic_defined: propext, Classical.choice, Quot.sound
Verif.arith_non_numeric: propext, Quot.sound
Verif.incr_decr_neg_exact: propext, Classical.choice, Quot.sound
Verif.integer_arithmetic_exact_false: propext
Verif.compare_antisymm_partial: propext, Classical.choice, Quot.sound
Verif.compare_lt_trans_partial: propext, Classical.choice, Quot.sound
Verif.compare_antisymm_false: propext, Quot.sound
Verif.merge_overrides: propext, Classical.choice, Quot.sound
Verif.merge_other: propext
Verif.JsonDrv.leading_text_absorbed: propext, Classical.choice, Quot.sound
Verif.JsonTok.json_round_trip: propext, Classical.choice, Quot.sound
Verif.JsonTok.serialize_succeeds: propext, Classical.choice, Quot.sound
Verif.JsonTok.json_round_trip_nul_false: propext, Classical.choice, Quot.sound
Verif.JsonTok.pretty_printing_neutral: propext, Classical.choice, Quot.sound
Verif.JsonEmit.emitter_output_integrity: propext, Classical.choice, Quot.sound
Verif.JsonEmit.emitter_output_independent: propext, Classical.choice, Quot.sound
Verif.JsonEmit.emitter_buffer_fits: propext, Quot.sound
Verif.JsonTok.string_escaping: propext, Classical.choice, Quot.sound
Verif.JsonTok.document_consumes_exactly: propext, Classical.choice, Quot.sound
Verif.IO.stream_delivers_partial: propext, Classical.choice, Quot.sound
Verif.IO.stream_delivers_8192_partial: propext, Classical.choice, Quot.sound
Verif.IO.stream_short_read_false: propext, Quot.sound
Verif.IO.stream_large_request_hangs: propext, Quot.sound
Verif.IO.memory_output_partial: propext, Quot.sound
Verif.IO.memory_output_wrap_false: propext, Quot.sound
Verif.ParseBool.parseBool_false_iff: propext, Quot.sound
Verif.Event.recording_sizes: propext, Quot.sound
Verif.Event.recording_document_sizes: propext, Quot.sound
Verif.Event.msgpack_exact_headers: propext, Quot.sound
Verif.Event.same_recordings_equal: propext, Classical.choice, Quot.sound
Verif.Event.isNaN_no_number: propext, Classical.choice, Quot.sound
Verif.Event.recordings_equal_iff_partial: propext, Classical.choice, Quot.sound
Verif.Event.recordings_equal_false: propext, Quot.sound
Verif.Event.msgpack_round_trip: propext, Classical.choice, Quot.sound
Verif.Event.msgpack_too_deep: propext, Quot.sound
Verif.Event.nesting_steps: propext, Quot.sound
Verif.Schema.validation_returns: propext, Quot.sound
Verif.Schema.combinations_exact: propext, Classical.choice, Quot.sound
Verif.Schema.accepts_iff_valid: propext, Classical.choice, Quot.sound
Verif.Schema.within_limit: propext, Quot.sound
Verif.Schema.not_beyond_limit_false: propext, Quot.sound
Verif.Schema.number_limits_exact_partial: propext, Classical.choice, Quot.sound
Verif.Schema.string_length_exact_partial: propext, Classical.choice, Quot.sound
Verif.Schema.array_limits_exact_partial: propext, Classical.choice, Quot.sound
Verif.Schema.object_limits_exact_partial: propext, Classical.choice, Quot.sound
Verif.Schema.multipleOf_negative_false: propext, Quot.sound
Verif.Schema.multipleOf_negative_float_false: propext, Quot.sound
Verif.Schema.multipleOf_zero_ub: propext, Classical.choice, Quot.sound
Verif.Schema.negative_maximum_false: propext, Classical.choice, Quot.sound
Verif.Schema.required_exact: propext, Classical.choice, Quot.sound
Verif.Schema.enum_exact: propext, Classical.choice, Quot.sound
Verif.Schema.unique_exact: propext, Classical.choice, Quot.sound
Verif.Schema.type_exact: propext, Classical.choice, Quot.sound
Verif.Schema.type_list_exact: propext, Classical.choice, Quot.sound
Verif.Ext.lookup_finds: propext, Classical.choice, Quot.sound
Verif.Ext.lookup_exact_partial: propext, Classical.choice, Quot.sound
Verif.Ext.lookup_exact_false: propext, Classical.choice, Quot.sound
Verif.Ext.pointer_malformed: propext, Quot.sound
Verif.Ext.formPointer_leads_back_partial: propext, Classical.choice, Quot.sound
Verif.Ext.formPointer_slash_false: propext, Quot.sound
Verif.Ext.edit_failed_unchanged: propext, Classical.choice, Quot.sound
Verif.Ext.add_exact_partial: propext, Classical.choice, Quot.sound
Verif.Ext.add_succeeds: propext, Classical.choice, Quot.sound
Verif.Ext.add_beyond_end_ub: propext, Classical.choice, Quot.sound
Verif.Ext.remove_exact_partial: propext, Classical.choice, Quot.sound
Verif.Ext.remove_item_false: propext, Classical.choice, Quot.sound
Verif.Ext.replace_exact_partial: propext, Classical.choice, Quot.sound
Verif.Ext.replace_succeeds: propext, Classical.choice, Quot.sound
Verif.Ext.move_exact_partial: propext, Classical.choice, Quot.sound
Verif.Ext.copy_exact_partial: propext, Classical.choice, Quot.sound
Verif.Ext.patch_atomic_partial: propext, Classical.choice, Quot.sound
Verif.Ext.patch_applies_partial: propext, Classical.choice, Quot.sound
Verif.Ext.patch_succeeds: propext, Classical.choice, Quot.sound
Verif.Ext.patch_one: propext, Classical.choice, Quot.sound
Verif.Ext.patch_atomic_add_false: propext, Quot.sound
Verif.Ext.patch_atomic_replace_false: propext, Quot.sound
Verif.Ext.diff_patch_partial: propext, Classical.choice, Quot.sound
Verif.Ext.diff_shrink_false: propext, Quot.sound
Verif.Ext.diff_slash_false: propext, Quot.sound
Verif.Ext.diff_update_present_partial: propext, Classical.choice, Quot.sound
Verif.Ext.diff_update_others_partial: propext, Classical.choice, Quot.sound
Verif.Ext.diff_update_blank_partial: propext, Classical.choice, Quot.sound
Verif.Ext.diff_update_equal_false: propext, Classical.choice, Quot.sound
Verif.Ext.diff_update_null_false: propext, Quot.sound
Verif.Flat.flatten_expand_partial: propext, Classical.choice, Quot.sound
Verif.Flat.flatten_expand_equal_partial: propext, Classical.choice, Quot.sound
Verif.Flat.flatten_empty_key_false: propext, Quot.sound
Verif.Flat.flatten_empty_container_false: propext, Quot.sound
Verif.Flat.flatten_slash_false: propext, Quot.sound
Verif.Payload.payload_layout: propext, Classical.choice, Quot.sound
Verif.Payload.payload_aligned_partial: propext, Classical.choice, Quot.sound
Verif.Payload.payload_nul_false: propext, Classical.choice, Quot.sound
Verif.Payload.payload_round_trip_partial: propext, Classical.choice, Quot.sound
Verif.Payload.serialize_payload_succeeds: propext, Classical.choice, Quot.sound
Verif.Payload.payload_empty_lost: propext, Classical.choice, Quot.sound
Verif.Payload.payload_same_path_false: propext, Classical.choice, Quot.sound
Verif.Payload.payload_null_false: propext, Classical.choice, Quot.sound
Verif.Payload.payload_list_false: propext, Classical.choice, Quot.sound
Verif.Payload.payload_msgpack_false: propext, Quot.sound
Verif.Uri.no_dot_segments: propext, Quot.sound
Verif.Uri.dots_stable: propext, Classical.choice, Quot.sound
Verif.Uri.resolve_no_dots: propext, Classical.choice, Quot.sound
Verif.Uri.resolve_rfc_partial: propext, Classical.choice, Quot.sound
Verif.Uri.resolve_stable_partial: propext, Classical.choice, Quot.sound
Verif.Uri.dots_rfc_partial: propext, Quot.sound
Verif.Uri.dots_rfc_false: propext, Quot.sound
Verif.Uri.resolve_at_false: propext
Verif.Uri.resolve_stable_false: propext
Verif.Uri.unescape_inverts: propext, Classical.choice, Quot.sound
Verif.Uri.unescape_safe: propext, Quot.sound
Verif.Uri.unescape_keeps: propext, Classical.choice, Quot.sound
Verif.Uri.unescape_lenient_false: propext, Quot.sound
Verif.Args.registrations_apart_partial: propext, Classical.choice, Quot.sound
Verif.Args.option_added_partial: propext, Classical.choice, Quot.sound
Verif.Args.option_refused_partial: propext, Classical.choice, Quot.sound
Verif.Args.failed_unchanged: propext, Classical.choice, Quot.sound
Verif.Args.short_above_255_false: propext, Quot.sound
Verif.Args.empty_path_ub: propext, Quot.sound
Verif.Guess.guess_string_iff: propext, Classical.choice, Quot.sound
Verif.Guess.guess_null_iff: propext, Quot.sound
Verif.Guess.guess_bool_iff: propext, Quot.sound
Verif.Guess.guess_integer_partial: propext, Quot.sound
Verif.Guess.guess_printed: propext, Quot.sound
Verif.Guess.guess_octal_partial: propext, Quot.sound
Verif.Guess.guess_hex_partial: propext, Quot.sound
Verif.Guess.guess_number: propext, Quot.sound
Verif.Guess.guess_special: propext, Quot.sound
Verif.Guess.guess_saturates_false: propext, Quot.sound
Verif.Guess.guess_nul_false: propext
Verif.Args.required_present_partial: propext, Classical.choice, Quot.sound
Verif.Args.required_config_never_returns: propext, Classical.choice, Quot.sound
Verif.Args.exclusive_partial: propext, Classical.choice, Quot.sound
Verif.Args.required_group_partial: propext, Classical.choice, Quot.sound
Verif.Args.required_group_ignored_false: propext, Classical.choice, Quot.sound
Verif.Args.count_in_group_false: propext, Classical.choice, Quot.sound
Verif.Args.requirements_hold_partial: propext, Classical.choice, Quot.sound
Verif.Args.default_unchecked_false: propext, Classical.choice, Quot.sound
Verif.Args.config_value_dropped_false: propext, Classical.choice, Quot.sound
Verif.Args.words_in_order_partial: propext, Classical.choice, Quot.sound
Verif.Args.later_words_win_partial: propext, Classical.choice, Quot.sound
Verif.Args.last_word: propext, Quot.sound
Verif.Args.mentioned_flag: propext, Quot.sound
Verif.Args.mentions_counted: propext, Quot.sound
Verif.Args.appended_in_order: propext, Quot.sound
Verif.Args.default_used_partial: propext, Classical.choice, Quot.sound
Verif.Args.default_in_group_partial: propext, Classical.choice, Quot.sound
Verif.Args.group_with_default_partial: propext, Classical.choice, Quot.sound
Verif.Args.flag_partial: propext, Classical.choice, Quot.sound
Verif.Args.choice_partial: propext, Classical.choice, Quot.sound
Verif.Args.null_word_default_false: propext, Classical.choice, Quot.sound
Verif.Args.env_flag_false: propext, Classical.choice, Quot.sound
Verif.Args.config_loop_false: propext, Classical.choice, Quot.sound
Verif.Args.words_all_taken: propext, Classical.choice, Quot.sound
Verif.Args.one_word_each: propext, Quot.sound
Verif.Args.nothing_else: propext, Classical.choice, Quot.sound
Verif.Args.nested_paths_escape_false: propext, Classical.choice, Quot.sound
Verif.Args.second_parse_false: propext, Classical.choice, Quot.sound
Verif.Args.integer_word_partial: propext, Quot.sound
Verif.Args.unsigned_word_partial: propext, Quot.sound
Verif.Args.not_integer_refused: propext, Quot.sound
Verif.Args.other_words: propext, Quot.sound
Verif.Args.untyped_word: propext
Verif.Args.unsigned_minus_false: propext
Verif.Args.integer_saturates_false: propext, Quot.sound
Verif.Loader.add_keeps: propext, Quot.sound
Verif.Loader.add_only_own: propext, Quot.sound
Verif.Loader.add_defines: propext, Quot.sound
Verif.Loader.lookup_keeps: propext, Quot.sound
Verif.Loader.adv_adds: propext, Quot.sound
Verif.Loader.forget_only: propext, Classical.choice, Quot.sound
Verif.Loader.forget_replaces: propext, Classical.choice, Quot.sound
Verif.Loader.list_id_unknown_false: propext
Verif.Loader.refs_resolved: propext, Quot.sound
Verif.Loader.ids_resolved: propext, Quot.sound
Verif.Loader.enum_kept: propext, Quot.sound
Verif.Loader.norm_only_refs: propext, Quot.sound
Verif.Loader.enum_property_false: propext
Verif.Loader.default_changed_false: propext
Verif.Loader.reference_found: propext, Classical.choice, Quot.sound
Verif.Loader.reference_into_added: propext, Classical.choice, Quot.sound
Verif.Loader.document_found: propext, Quot.sound
Verif.Loader.known_found: propext, Quot.sound
Verif.Loader.unknown_throws: propext, Quot.sound
Verif.Loader.local_reference: propext, Classical.choice, Quot.sound
Verif.Loader.own_id_false: propext, Quot.sound
Verif.Loader.file_only: propext, Quot.sound
Verif.Loader.network_only: propext
Verif.Loader.fetched_known: propext, Quot.sound
Verif.Loader.first_path_wins: propext, Quot.sound
Verif.Loader.absolute_file_read: propext, Quot.sound
Verif.Loader.dots_fragment_false: propext, Classical.choice, Quot.sound
Verif.Loader.handler_with_base_false: propext, Quot.sound
Verif.Loader.empty_answer_ub: propext
Verif.Defaults.defaults_keep: propext, Classical.choice, Quot.sound
Verif.Defaults.defaults_proper: propext, Classical.choice, Quot.sound
Verif.Defaults.null_kept: propext, Classical.choice, Quot.sound
Verif.Defaults.defaults_fail: propext, Classical.choice, Quot.sound
Verif.Defaults.one_of_all_used_false: propext, Quot.sound
Verif.Defaults.defaults_only: propext, Classical.choice, Quot.sound
Verif.Defaults.no_defaults: propext, Classical.choice, Quot.sound
Verif.Defaults.padding_false: propext, Quot.sound
Verif.Defaults.defaults_filled: propext, Classical.choice, Quot.sound
Verif.Defaults.default_there: propext, Classical.choice, Quot.sound
Verif.Defaults.defaults_filled_all: propext, Classical.choice, Quot.sound
Verif.Defaults.null_document_false: propext, Quot.sound
Verif.Defaults.items_first_only_false: propext, Quot.sound
Verif.Defaults.second_call_partial: propext, Classical.choice, Quot.sound
Verif.Defaults.second_call_false: propext, Quot.sound
Verif.Defaults.call_ends: propext, Quot.sound
Verif.Defaults.call_depth: propext, Quot.sound
Verif.Defaults.call_never_ends_false: propext, Quot.sound
Verif.Bundle.header_read: propext, Classical.choice, Quot.sound
Verif.Bundle.header_fields: propext, Quot.sound
Verif.Bundle.field_unique: propext, Quot.sound
Verif.Bundle.last_line_false: propext, Quot.sound
Verif.Bundle.bar_blank_false: propext, Quot.sound
Verif.Bundle.header_from_file_partial: propext, Classical.choice, Quot.sound
Verif.Bundle.header_written: propext, Classical.choice, Quot.sound
Verif.Bundle.header_document: propext, Classical.choice, Quot.sound
Verif.Bundle.header_round_trip_partial: propext, Classical.choice, Quot.sound
Verif.Bundle.scalars_good: propext, Quot.sound
Verif.Bundle.read_back_partial: propext, Classical.choice, Quot.sound
Verif.Bundle.newline_adds_member_false: propext, Quot.sound
Verif.Bundle.hash_cuts_false: propext, Quot.sound
Verif.Bundle.empty_item_lost_false: propext, Quot.sound
Verif.Bundle.bar_makes_list_false: propext, Quot.sound
Verif.Bundle.version_lost_false: propext, Quot.sound
Verif.Bundle.colon_in_key_false: propext, Quot.sound
Verif.Bundle.types_change_false: propext, Quot.sound
Verif.Bundle.plain_round_trip: propext, Classical.choice, Quot.sound
Verif.Bundle.guess_format_partial: propext, Classical.choice, Quot.sound
Verif.Bundle.guess_blank_false: propext, Classical.choice, Quot.sound
Verif.Xml.plist_read: propext, Classical.choice, Quot.sound
Verif.Xml.bare_read: propext, Classical.choice, Quot.sound
Verif.Xml.says_one_thing: propext, Quot.sound
Verif.Xml.items_one_thing: propext, Quot.sound
Verif.Xml.comment_in_string_false: propext, Quot.sound
Verif.Xml.comment_in_value_false: propext, Quot.sound
Verif.Xml.value_as_key_false: propext, Quot.sound
Verif.Xml.key_without_value_false: propext, Quot.sound
Verif.Xml.lone_scalar_unread: propext, Quot.sound
Verif.Xml.lone_word_read: propext, Quot.sound
Verif.Xml.lone_word_unread: propext, Quot.sound
Verif.Xml.lone_empty_string_read: propext, Quot.sound
Verif.Xml.empty_plist_false: propext, Quot.sound
Verif.Xml.plist_defined_partial: propext, Quot.sound
Verif.Xml.plist_defined_false: propext, Quot.sound
Verif.Xml.comments_ignored: propext, Quot.sound
Verif.Xml.plist_written: propext, Classical.choice, Quot.sound
Verif.Xml.plist_written_false: propext, Classical.choice, Quot.sound
Verif.Xml.plist_round_trip_partial: propext, Classical.choice, Quot.sound
Verif.Xml.container_round_trip_partial: propext, Classical.choice, Quot.sound
Verif.Xml.plist_back_equal: propext, Classical.choice, Quot.sound
Verif.Xml.xmlChars_iff: propext, Classical.choice, Quot.sound
Verif.Xml.lone_round_trip_false: propext, Classical.choice, Quot.sound
Verif.Xml.blank_string_false: propext, Classical.choice, Quot.sound
Verif.Xml.blank_key_false: propext, Classical.choice, Quot.sound
Verif.Xml.control_character_false: propext, Classical.choice, Quot.sound
Verif.Xml.not_utf8_false: propext, Classical.choice, Quot.sound
Verif.Xml.nul_string_false: propext, Classical.choice, Quot.sound
Verif.Xml.empty_blob_false: propext, Classical.choice, Quot.sound
Verif.Xml.no_bytes_false: propext, Classical.choice, Quot.sound
Verif.Xml.integer_read: propext, Classical.choice, Quot.sound
Verif.Xml.hex_read: propext, Classical.choice, Quot.sound
Verif.Xml.octal_read: propext, Quot.sound
Verif.Xml.not_integer_zero: propext, Quot.sound
Verif.Yaml.yaml_read_partial: propext, Classical.choice, Quot.sound
Verif.Yaml.yaml_read_first: propext, Classical.choice, Quot.sound
Verif.Yaml.yaml_read_iff: propext, Classical.choice, Quot.sound
Verif.Yaml.means_one: propext, Classical.choice, Quot.sound
Verif.Yaml.anchor_redefined_false: propext, Quot.sound
Verif.Yaml.key_anchor_false: propext, Quot.sound
Verif.Yaml.int_tag_false: propext, Classical.choice, Quot.sound
Verif.Yaml.key_text_false: propext, Classical.choice, Quot.sound
Verif.Yaml.yaml_ends: propext, Quot.sound
Verif.Yaml.yaml_defined_partial: propext, Quot.sound
Verif.Yaml.binary_undefined_false: propext, Quot.sound
Verif.Yaml.after_error_hangs: propext, Quot.sound
Verif.Yaml.error_reached: propext, Quot.sound
Verif.Yaml.after_exception_ub: propext, Quot.sound
Verif.LoadAll.iterators_are_positions: propext, Quot.sound
Verif.LoadAll.values_one: none
Verif.LoadAll.exception_keeps: propext, Quot.sound
Verif.Yaml.yaml_documents_partial: propext, Classical.choice, Quot.sound
Verif.Yaml.yaml_documents: propext, Classical.choice, Quot.sound
Verif.Yaml.empty_stream_false: propext, Quot.sound
Verif.Yaml.broken_stream_hangs: propext, Quot.sound
Verif.JsonDrv.json_first_only: propext, Quot.sound
Verif.Yaml.yaml_written_partial: propext, Classical.choice, Quot.sound
Verif.Yaml.yaml_written_all_partial: propext, Classical.choice, Quot.sound
Verif.Yaml.yaml_refused: propext, Classical.choice, Quot.sound
Verif.Yaml.yaml_written_false: propext, Classical.choice, Quot.sound
Verif.Yaml.yaml_well_formed: propext, Classical.choice, Quot.sound
Verif.Yaml.yaml_prefix: propext, Classical.choice, Quot.sound
Verif.Yaml.yaml_closed: propext, Classical.choice, Quot.sound
Verif.Yaml.yaml_two_values: propext, Classical.choice, Quot.sound
Verif.Yaml.yaml_round_trip_partial: propext, Classical.choice, Quot.sound
Verif.Yaml.yaml_documents_round_trip_partial: propext, Classical.choice, Quot.sound
Verif.Yaml.yaml_back_equal: propext, Classical.choice, Quot.sound
Verif.Yaml.string_type_false: propext, Classical.choice, Quot.sound
Verif.Yaml.keys_merge_false: propext, Classical.choice, Quot.sound
Verif.Yaml.key_null_false: propext, Classical.choice, Quot.sound
Verif.Yaml.nul_false: propext, Classical.choice, Quot.sound
Verif.Conv.cast_exact_partial: propext, Classical.choice, Quot.sound
Verif.Conv.cast_in_range: propext, Classical.choice, Quot.sound
Verif.Conv.cast_refused: propext, Quot.sound
Verif.Conv.cast_text_overflow: propext, Classical.choice, Quot.sound
Verif.Conv.cast_wraps_false: propext, Classical.choice, Quot.sound
Verif.Conv.signed_char_false: propext, Classical.choice, Quot.sound
Verif.Conv.minus_unsigned_false: propext, Classical.choice, Quot.sound
Verif.Conv.text_same_integer: propext, Quot.sound
Verif.Conv.integer_text_back: propext, Classical.choice, Quot.sound
Verif.Conv.text_same_truth: propext, Classical.choice, Quot.sound
Verif.Conv.float_exact: propext, Classical.choice, Quot.sound
Verif.Conv.vector_exact: propext, Quot.sound
Verif.Conv.map_exact: propext, Quot.sound
Verif.Conv.containers_back: propext, Quot.sound
Verif.Conv.complex_forms: propext, Quot.sound
Verif.Conv.complex_exact: propext, Quot.sound
Verif.Conv.null_text_false: propext, Quot.sound
Verif.Conv.null_vector_false: propext
Verif.Conv.params_settable: propext, Classical.choice, Quot.sound
Verif.Conv.params_listed: propext, Quot.sound
Verif.Conv.params_set_many: propext, Classical.choice, Quot.sound
Verif.Conv.params_restored: propext, Classical.choice, Quot.sound
Verif.Conv.params_failed: propext
Verif.Conv.params_constructed: propext, Classical.choice, Quot.sound
Verif.Conv.xml_writer_follows: propext, Quot.sound
Verif.Conv.yaml_params_partial: propext, Classical.choice, Quot.sound
Verif.Conv.yaml_styles: propext, Quot.sound
Verif.Conv.yaml_styles_written: propext, Classical.choice, Quot.sound
Verif.Conv.yaml_styles_read_false: propext, Quot.sound
Verif.Conv.json_strict_false: propext
Verif.Conv.bundle_new_false: none
Verif.Conv.indent_cut_false: propext
Verif.Ref.no_dangling_partial: propext, Classical.choice, Quot.sound
Verif.Ref.resolved_safe: propext, Classical.choice, Quot.sound
Verif.Ref.pointers_live: propext, Classical.choice, Quot.sound
Verif.Ref.grow_self_false: propext, Quot.sound
Verif.Ref.reassign_self_false: propext, Quot.sound
Verif.Ref.reassign_kept_false: propext, Quot.sound
Verif.Ref.cyclic_false: propext, Quot.sound
Verif.Ref.kept_target_false: propext, Quot.sound
Verif.Ref.refers_forever: propext, Classical.choice, Quot.sound
Verif.Ref.refers_var: propext, Classical.choice, Quot.sound
Verif.Ref.dead_stays: propext, Classical.choice, Quot.sound
Verif.Ref.invalid_stays: propext, Classical.choice, Quot.sound
Verif.Ref.exists_ref: propext, Classical.choice, Quot.sound
Verif.Ref.exists_proxy: propext, Classical.choice, Quot.sound
Verif.Ref.through_ref: propext, Classical.choice, Quot.sound
Verif.Ref.invalid_throws: propext, Classical.choice, Quot.sound
Verif.Ref.put_look: propext, Classical.choice, Quot.sound
Verif.Ref.assign_look: propext, Classical.choice, Quot.sound
Verif.Ref.append_refs: propext, Classical.choice, Quot.sound
Verif.Ref.insert_refs: propext, Classical.choice, Quot.sound
Verif.Ref.ref_refers: propext, Classical.choice, Quot.sound
Verif.Ref.ref_refers_path: propext, Classical.choice, Quot.sound
Verif.Ref.path_refers: propext, Classical.choice, Quot.sound
Verif.Ref.path_refers_path: propext, Classical.choice, Quot.sound
Verif.Ref.at_refers: propext, Classical.choice, Quot.sound
Verif.Ref.at_refers_new: propext, Classical.choice, Quot.sound
Verif.Ref.at_wrong: propext, Classical.choice, Quot.sound
Verif.Ref.at_refers_path: propext, Classical.choice, Quot.sound
Verif.Ref.atPath_refers: propext, Classical.choice, Quot.sound
Verif.Ref.atPath_refers_new: propext, Classical.choice, Quot.sound
Verif.Ref.atPath_refers_path: propext, Classical.choice, Quot.sound
Verif.Ref.storage_exact_partial: propext, Classical.choice, Quot.sound
Verif.Ref.objects_exact_partial: propext, Classical.choice, Quot.sound
Verif.Ref.nothing_left_partial: propext, Classical.choice, Quot.sound
Verif.Ref.owner_exists: propext, Classical.choice, Quot.sound
Verif.Ref.leak_false: propext, Quot.sound
Verif.Ref.look_path: propext, Classical.choice, Quot.sound
Verif.Ref.look_no_path: propext, Classical.choice, Quot.sound
Verif.Ref.put_creates: propext, Classical.choice, Quot.sound
Verif.Ref.is_unique: propext, Quot.sound
Verif.Ref.is_exists: propext, Classical.choice, Quot.sound
Verif.Ref.look_is: propext, Classical.choice, Quot.sound
Verif.Ref.elem_is: propext, Quot.sound
Verif.Ref.path_is: propext, Classical.choice, Quot.sound
Verif.Ref.put_is: propext, Classical.choice, Quot.sound
Verif.Ref.assign_is: propext, Classical.choice, Quot.sound
Verif.Ref.erase_is: propext, Classical.choice, Quot.sound
Verif.Ref.clear_is: propext, Classical.choice, Quot.sound
Verif.Ref.append_is: propext, Classical.choice, Quot.sound
Verif.Ref.set_is: propext, Classical.choice, Quot.sound
Verif.Ref.list_shared_false: propext, Classical.choice, Quot.sound
Verif.Ref.text_shared_false: propext, Classical.choice, Quot.sound
Verif.Ref.copy_is: propext, Classical.choice, Quot.sound
Verif.Ref.copy_equal: propext, Classical.choice, Quot.sound
Verif.Ref.copy_changed: propext, Quot.sound
Verif.Ref.copied_changed: propext, Quot.sound
Verif.Ref.copy_append: propext, Classical.choice, Quot.sound
Verif.Ref.copy_cycle_false: propext, Classical.choice, Quot.sound
Verif.Args.generated_schema_accepts_partial: propext, Classical.choice, Quot.sound
Verif.Args.default_rejected_false: propext, Classical.choice, Quot.sound
Verif.Args.filled_list_rejected_false: propext, Classical.choice, Quot.sound
Verif.Args.generated_schema_iff_partial: propext, Classical.choice, Quot.sound
Verif.Args.append_not_list_false: propext, Quot.sound
Verif.Args.nan_integer_false: propext, Quot.sound
Verif.Schema.entry_from_text: propext, Quot.sound
Verif.Schema.check_total: propext, Classical.choice, Quot.sound
Verif.Schema.accepted_proper: propext, Classical.choice, Quot.sound
Verif.Schema.proper_accepted_partial: propext, Classical.choice, Quot.sound
Verif.Schema.named_proper: propext, Classical.choice, Quot.sound
Verif.Schema.proper_named_partial: propext, Classical.choice, Quot.sound
Verif.Schema.deep_schema_false: propext, Classical.choice, Quot.sound
Verif.Schema.accepted_works_partial: propext, Classical.choice, Quot.sound
Verif.Schema.dangling_reference_false: propext, Classical.choice, Quot.sound
Verif.Schema.divisibleBy_zero_false: propext, Classical.choice, Quot.sound
Verif.Schema.bad_pattern_false: propext, Classical.choice, Quot.sound
Verif.Schema.huge_size_false: propext, Classical.choice, Quot.sound
Verif.Args.description_total: propext, Classical.choice, Quot.sound
Verif.Args.merge_adds_partial: propext, Classical.choice, Quot.sound
Verif.Args.merge_rebuilds_partial: propext, Classical.choice, Quot.sound
Verif.Args.argument_in_group_false: propext, Quot.sound
Verif.Args.short_lost_false: propext, Quot.sound
Verif.Args.negative_short_false: propext, Quot.sound
Verif.Args.blob_lost_false: propext, Quot.sound
Verif.Args.empty_last_key_false: propext, Quot.sound
Verif.Args.unsigned_lost_false: propext, Quot.sound
Verif.Args.empty_keypath_false: propext, Quot.sound
Verif.Args.bad_action_false: propext, Quot.sound
Verif.Args.not_required_false: propext, Quot.sound
Verif.Args.setter_shown: propext, Classical.choice, Quot.sound
Verif.Args.option_shown: propext, Classical.choice, Quot.sound
Verif.Args.argument_shown: propext, Classical.choice, Quot.sound
Verif.Args.group_setter_shown: propext, Classical.choice, Quot.sound
Verif.Args.group_shown: propext, Classical.choice, Quot.sound
Verif.Args.member_shown: propext, Classical.choice, Quot.sound
Verif.Args.no_member: propext, Classical.choice, Quot.sound
Verif.Args.validate_iff: propext, Classical.choice, Quot.sound
Verif.Args.validate_total: propext, Classical.choice, Quot.sound
Verif.Args.validate_finds: propext, Classical.choice, Quot.sound
Verif.Args.validate_sane: propext, Classical.choice, Quot.sound
Verif.Args.arg_read: propext, Quot.sound
Verif.Args.no_choices_false: propext, Classical.choice, Quot.sound
Verif.Args.same_choices_false: propext, Classical.choice, Quot.sound
Verif.Args.null_choice_false: propext, Classical.choice, Quot.sound
Verif.Args.nameless_option_false: propext, Classical.choice, Quot.sound
Verif.Args.good_description_false: propext, Classical.choice, Quot.sound
Verif.Args.members_twice_false: propext, Quot.sound
Verif.Args.help_lays_out: propext, Classical.choice, Quot.sound
Verif.Args.help_shows_once: propext, Classical.choice, Quot.sound
Verif.Args.advanced_help_shows_all: propext, Classical.choice, Quot.sound
Verif.Args.basic_help_hides: propext, Classical.choice, Quot.sound
Verif.Args.entry_shows: propext, Classical.choice, Quot.sound
Verif.Args.tokens_injective: propext, Quot.sound
Verif.Args.usage_allows: propext, Classical.choice, Quot.sound
Verif.Args.help_is_printed: propext, Classical.choice, Quot.sound
Verif.Args.advanced_group_hides_false: propext, Quot.sound
Verif.Args.usage_allows_false: propext, Classical.choice, Quot.sound
Verif.Args.help_is_known: propext, Classical.choice, Quot.sound
Verif.Args.help_text_fixed: propext, Classical.choice, Quot.sound
Verif.Args.help_wins: propext, Classical.choice, Quot.sound
Verif.Args.help_exits: propext, Classical.choice, Quot.sound
Verif.Args.help_exits_false: propext, Classical.choice, Quot.sound
Verif.Args.adv_help_known_false: propext, Quot.sound
Verif.Args.line_read_partial: propext, Classical.choice, Quot.sound
Verif.Args.line_unique_partial: propext, Classical.choice, Quot.sound
Verif.Args.line_accepted_partial: propext, Classical.choice, Quot.sound
Verif.Args.spellings_partial: propext, Classical.choice, Quot.sound
Verif.Args.line_rest_partial: propext, Classical.choice, Quot.sound
Verif.Args.colon_option_false: propext, Classical.choice, Quot.sound
Verif.Args.question_option_false: propext, Classical.choice, Quot.sound
Verif.Args.plus_option_false: propext, Classical.choice, Quot.sound
Verif.Args.equals_option_false: propext, Classical.choice, Quot.sound
Verif.BlobLife.buffers_released: propext, Classical.choice, Quot.sound
Verif.BlobLife.created_blob: propext, Classical.choice, Quot.sound
Verif.BlobLife.copied_blob: propext, Quot.sound
Verif.BlobLife.access_safe: propext, Classical.choice, Quot.sound
Verif.BlobLife.operations_partial: propext, Classical.choice, Quot.sound
Verif.BlobLife.copies_freed_partial: propext, Classical.choice, Quot.sound
Verif.BlobLife.create_failure_false: propext
Verif.BlobLife.copy_leaks_false: propext
Verif.BlobLife.empty_blob_false: propext
Verif.BlobLife.failed_assignment_false: propext
Verif.Tool.input_format: propext, Classical.choice, Quot.sound
Verif.Tool.output_format: propext, Classical.choice, Quot.sound
Verif.Tool.does_what_is_asked: propext, Classical.choice, Quot.sound
Verif.Tool.command_line: propext, Classical.choice, Quot.sound
Verif.Tool.parameters: propext, Classical.choice, Quot.sound
Verif.Tool.one_action: propext, Classical.choice, Quot.sound
Verif.Tool.put_in: propext, Classical.choice, Quot.sound
Verif.Tool.set_null_false: propext, Classical.choice, Quot.sound
Verif.Tool.file_name_false: propext, Classical.choice, Quot.sound
Verif.Schema.error_explained: propext, Classical.choice, Quot.sound
Verif.Schema.schema_error_explained: propext, Classical.choice, Quot.sound
Verif.Schema.single_error: propext, Classical.choice, Quot.sound
Verif.Schema.data_path: propext, Classical.choice, Quot.sound
Verif.Schema.schema_path_leads: propext, Classical.choice, Quot.sound
Verif.Schema.schema_path_partial: propext, Classical.choice, Quot.sound
Verif.Schema.schema_error_leads: propext, Classical.choice, Quot.sound
Verif.Schema.report_verdict: propext, Classical.choice, Quot.sound
Verif.Schema.report_agrees: propext, Quot.sound
Verif.Schema.schemaReport_report: propext, Quot.sound
Verif.Schema.user_data_path: propext, Classical.choice, Quot.sound
Verif.Schema.judge_alone: propext, Quot.sound
Verif.Schema.ref_path_false: propext, Quot.sound
Verif.Schema.type_path_false: propext, Quot.sound
Verif.Schema.printed: propext, Quot.sound
Verif.Schema.print_tells_partial: propext, Classical.choice, Quot.sound
Verif.Schema.every_error_printed: propext
Verif.Schema.every_schema_error_printed: propext, Quot.sound
Verif.Schema.only_errors_printed: propext, Quot.sound
Verif.Schema.printed_data_path: propext, Classical.choice, Quot.sound
Verif.Schema.print_empty: propext, Quot.sound
Verif.Schema.path_text: propext, Classical.choice, Quot.sound
Verif.Schema.alternatives_false: propext, Quot.sound
Verif.Schema.line_end_false: propext, Quot.sound
Verif.Event.random_played: propext, Classical.choice, Quot.sound
Verif.Event.random_exactly: propext, Classical.choice, Quot.sound
Verif.Event.random_recording: propext, Classical.choice, Quot.sound
Verif.Event.random_possible: propext, Classical.choice, Quot.sound
Verif.Event.random_returns: propext, Classical.choice, Quot.sound
Verif.Event.fuel_enough: propext, Classical.choice, Quot.sound
Verif.Event.random_keys_false: propext, Classical.choice, Quot.sound
Verif.Event.random_blobs_false: propext, Classical.choice, Quot.sound
Verif.Sink.json_beginning: propext, Quot.sound
Verif.Sink.json_file_beginning: propext, Quot.sound
Verif.Sink.json_all_taken: propext, Quot.sound
Verif.Sink.serialize_all_taken: propext, Classical.choice, Quot.sound
Verif.Sink.json_memory: propext, Quot.sound
Verif.Sink.json_file_partial: propext, Quot.sound
Verif.Sink.json_ends_false: propext, Quot.sound
Verif.Sink.json_disk_false: propext, Quot.sound
Verif.Sink.once_all_partial: propext
Verif.Sink.once_lost_false: propext, Quot.sound
Verif.Sink.once_hole_false: propext
Verif.Dispatch.emitter_format: propext, Quot.sound
Verif.Dispatch.parser_ends: propext, Quot.sound
Verif.Dispatch.parser_format: propext
Verif.Dispatch.same_format: propext, Quot.sound
Verif.Dispatch.guess_format: propext
Verif.Dispatch.guess_nothing: propext
Verif.Dispatch.unknown_false: propext, Quot.sound
Verif.Dispatch.guess_all_false: propext
Verif.Num.float_result: propext, Classical.choice, Quot.sound
Verif.Num.float_nearest: propext, Classical.choice, Quot.sound
Verif.Num.round_tie: propext, Classical.choice, Quot.sound
Verif.Num.float_exact: propext, Classical.choice, Quot.sound
Verif.Num.float_overflow: propext, Classical.choice, Quot.sound
Verif.Num.int_exact: propext, Classical.choice, Quot.sound
Verif.Num.float_rem: propext, Classical.choice, Quot.sound
Verif.Num.float_nan: propext, Classical.choice, Quot.sound
Verif.Num.float_sign: propext, Classical.choice, Quot.sound
Verif.Num.float_infinite: propext, Classical.choice, Quot.sound
Verif.Num.float_commutes: propext, Classical.choice, Quot.sound
Verif.Num.float_held: propext, Classical.choice, Quot.sound
Verif.Num.float_add_mono: propext, Classical.choice, Quot.sound
Verif.Num.float_steps: propext, Classical.choice, Quot.sound
Verif.Num.double_held: propext, Classical.choice, Quot.sound
Verif.Num.double_same: propext, Classical.choice, Quot.sound
Verif.Num.value_op: propext, Classical.choice, Quot.sound
Verif.Num.integers_same: propext, Classical.choice, Quot.sound
Verif.Num.add_grouped_false: propext, Classical.choice, Quot.sound
Verif.Num.double_nearest_false: propext, Classical.choice, Quot.sound
Verif.Reset.json_reset: propext, Quot.sound
Verif.Reset.json_no_reset: propext, Quot.sound
Verif.Reset.msgpack_reset: propext, Quot.sound
Verif.Reset.bundle_reset: propext, Quot.sound
Verif.Reset.xml_reset: propext, Quot.sound
Verif.Reset.xml_reset_document: propext, Quot.sound
Verif.Reset.xml_reset_false: propext, Quot.sound
Verif.Reset.xml_reset_value_false: propext, Quot.sound
Verif.IO.stream_reads: propext, Classical.choice, Quot.sound
Verif.IO.memory_reads: propext, Quot.sound
Verif.IO.pieces_join: propext, Classical.choice, Quot.sound
Verif.IO.piece_empty: propext
Verif.IO.file_reads_partial: propext, Classical.choice, Quot.sound
Verif.IO.file_error_iff: propext, Quot.sound
Verif.IO.file_error_false: propext, Quot.sound
Verif.Args.program_name_partial: propext, Quot.sound
Verif.Args.program_name_root: propext, Classical.choice, Quot.sound
Verif.Args.lastOf_unique: propext, Quot.sound
Verif.Args.name_from_system_false: propext, Quot.sound
Verif.PBundle.bundle_written: propext, Classical.choice, Quot.sound
Verif.PBundle.bundle_refused: propext, Quot.sound
Verif.PBundle.bundle_round_trip_partial: propext, Classical.choice, Quot.sound
Verif.PBundle.bundle_from_file_partial: propext, Classical.choice, Quot.sound
Verif.PBundle.plain_came_back: propext, Classical.choice, Quot.sound
Verif.PBundle.default_paths: propext
Verif.PBundle.empty_payload_false: propext, Classical.choice, Quot.sound
Verif.PBundle.long_header_reads_outside: propext, Quot.sound
Verif.PBundle.no_nul_reads_outside: propext, Quot.sound
Verif.PathErr.breaks_iff: propext, Quot.sound
Verif.PathErr.get_throws: propext
Verif.PathErr.set_throws: propext, Quot.sound
Verif.PathErr.set_there: propext
Verif.PathErr.erase_throws: propext, Classical.choice, Quot.sound
Verif.PathErr.erase_there: propext, Quot.sound
Verif.PathErr.append_throws: propext
Verif.Dec.double_read_back: propext, Classical.choice, Quot.sound
Verif.Dec.infinity_read_back: propext, Classical.choice, Quot.sound
Verif.Dec.double_text_injective: propext, Classical.choice, Quot.sound
Verif.Dec.float_law: propext, Classical.choice, Quot.sound
Verif.Dec.json_exact: propext, Classical.choice, Quot.sound
Verif.Dec.xml_exact: propext, Classical.choice, Quot.sound
Verif.Dec.yaml_exact: propext, Classical.choice, Quot.sound
Verif.Dec.header_double: propext, Classical.choice, Quot.sound
Verif.Dec.header_doubles: propext, Classical.choice, Quot.sound
Verif.Dec.bundle_exact: propext, Classical.choice, Quot.sound
Verif.Dec.payload_exact: propext, Classical.choice, Quot.sound
Verif.Dec.sixteen_digits_false: propext, Classical.choice, Quot.sound
Verif.Msg.message_tells: propext, Classical.choice, Quot.sound
Verif.Msg.typeName_injective: propext, Classical.choice, Quot.sound
Verif.Msg.key_named: propext, Classical.choice, Quot.sound
Verif.Msg.type_named: propext, Classical.choice, Quot.sound
Verif.Msg.getPathR_spec: propext
Verif.Sink.payload_memory: propext, Quot.sound
Verif.Sink.payload_whole: propext, Quot.sound
Verif.Sink.payload_beginning: propext, Quot.sound
Verif.Sink.payload_all_taken_partial: propext, Quot.sound
Verif.Sink.payload_nul_lost_false: propext, Quot.sound
Verif.Sink.payload_document: propext, Classical.choice, Quot.sound
Verif.Dec.text_comes_back: propext, Classical.choice, Quot.sound
Verif.Dec.short_comes_back: propext, Classical.choice, Quot.sound
Verif.Dec.zero_comes_back: propext, Classical.choice, Quot.sound
Verif.Dec.tiny_comes_back: propext, Classical.choice, Quot.sound
Verif.Dec.double_comes_near: propext, Classical.choice, Quot.sound
Verif.Dec.digits_lost_false: propext, Classical.choice, Quot.sound
Verif.Dec.rounded_twice_false: propext, Classical.choice, Quot.sound
Verif.Dec.infinity_text_false: propext, Classical.choice, Quot.sound
Verif.Event.print_tells: propext, Classical.choice, Quot.sound
Verif.Event.print_tells_false: propext, Classical.choice, Quot.sound
Verif.Args.option_named: propext, Quot.sound
Verif.Args.missing_named: propext, Quot.sound
Verif.Args.registered_named_partial: propext, Classical.choice, Quot.sound
Verif.Args.limit_named: propext, Quot.sound
Verif.Args.limit_counts: propext, Quot.sound
Verif.Args.named_alike_false: propext, Quot.sound
Verif.Flat.flatten_texts_partial: propext, Classical.choice, Quot.sound
Verif.Flat.flatten_texts_succeeds: propext, Classical.choice, Quot.sound
Verif.Flat.list_told: propext, Quot.sound
Verif.Flat.flatten_texts_false: propext, Quot.sound
Verif.Flat.list_told_false: propext, Quot.sound
Verif.Conv.path_into: propext
Verif.Conv.key_into: propext
Verif.Conv.integers_into: propext, Classical.choice, Quot.sound
Verif.Conv.int_comes_back: propext, Classical.choice, Quot.sound
Verif.Conv.vector_comes_back: propext, Quot.sound
Verif.Conv.into_checked: propext, Quot.sound
