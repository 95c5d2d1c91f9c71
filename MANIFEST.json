{
 "claims": [
  {
   "property": "C01",
   "status": "partial",
   "theorems": [
    "V8.C01_build_extract",
    "V8.C01_build_succeeds",
    "V8.C01_oversized_truncated",
    "V8.C01_bom_name_lost"
   ],
   "note": "Round trip proved for every folder of plain files under 2 GiB with names that survive UTF-16 decoding; the \"fails instead of reading back differently\" half is false of the code (4 GiB files truncated, proved)."
  },
  {
   "property": "C02",
   "status": "proved",
   "theorems": [
    "V8.C02_build_read64"
   ],
   "note": ""
  },
  {
   "property": "C03",
   "status": "partial",
   "theorems": [
    "V8.C03_extract_two_partial",
    "V8.C03_two_containers_unreadable"
   ],
   "note": "False of the code: the negation is proved for every pair of folders; the reading half is proved."
  },
  {
   "property": "C04",
   "status": "proved",
   "theorems": [
    "V8.C04_single_container"
   ],
   "note": ""
  },
  {
   "property": "C05",
   "status": "proved",
   "theorems": [
    "V8.C05_chain_reassembled",
    "V8.C05_empty_first_block_error"
   ],
   "note": ""
  },
  {
   "property": "C06",
   "status": "proved",
   "theorems": [
    "V8.C06_history_preserved"
   ],
   "note": ""
  },
  {
   "property": "C07",
   "status": "partial",
   "theorems": [
    "V8.C07_header_fields_partial",
    "V8.C07_overflow_not_rejected"
   ],
   "note": "In-range half proved as an iff; overflow is not rejected (negation proved)."
  },
  {
   "property": "C08",
   "status": "partial",
   "theorems": [
    "V8.Zlib.C08_prefix",
    "V8.Zlib.C08_iff",
    "V8.Zlib.C08_complete_partial",
    "V8.Zlib.C08_truncated_accepted",
    "V8.Zlib.C08_silent_portion_loses",
    "V8.Zlib.C08_C09_file_round_trip",
    "V8.Zlib.C08_container_mark"
   ],
   "note": "exact characterisation; false for streams with 8192 bytes of input without output (proved); zlib is a parameter (a machine fed byte by byte)"
  },
  {
   "property": "C09",
   "status": "proved",
   "theorems": [
    "V8.Zlib.C09_copy",
    "V8.Zlib.C09_compress",
    "V8.Zlib.C09_compress_empty",
    "V8.Zlib.C09_portion_size",
    "V8.Zlib.C08_C09_file_round_trip"
   ],
   "note": "for a compressor that does not care how its input is cut (zlib is a parameter)"
  },
  {
   "property": "C10",
   "status": "proved",
   "theorems": [
    "V8.Brace.C10_round_trip",
    "V8.Brace.C10_no_translation",
    "V8.Brace.C10_empty_list_changes"
   ],
   "note": "Empty lists are excluded from well-formed trees: C10_empty_list_changes."
  },
  {
   "property": "C11",
   "status": "partial",
   "theorems": [
    "V8.Brace.C11_strings_survive_partial",
    "V8.Brace.C11_long_string_corrupted"
   ],
   "note": "False of the code: long ASCII literals that pass the non-validating base64 test get line breaks inserted (proved for all of them without inner quotes)."
  },
  {
   "property": "C12",
   "status": "partial",
   "theorems": [
    "V8.Brace.C12_layout",
    "V8.Brace.C12_binary_survives_partial",
    "V8.Brace.C12_short_binary_changes",
    "V8.Brace.C12_big_binary_reported"
   ],
   "note": "Layout and round trip of binaries of 72 characters or more; shorter ones come back with another marker (negation proved)."
  },
  {
   "property": "C13",
   "status": "proved",
   "theorems": [
    "V8.Brace.C13_stable"
   ],
   "note": ""
  },
  {
   "property": "C14",
   "status": "partial",
   "theorems": [
    "V8.Brace.C14_unterminated_string_partial",
    "V8.Brace.C14_unclosed_brace_accepted",
    "V8.Brace.C14_prefix_accepted"
   ],
   "note": "Unpaired quotes are reported; unclosed braces are silently accepted (negation proved for all raw tokens)."
  },
  {
   "property": "C15",
   "status": "partial",
   "theorems": [
    "V8.Code.C15_round_trip_partial",
    "V8.Code.C15_nested_single_name_fails",
    "V8.Code.C15_same_file_mixed"
   ],
   "note": "Round trip for every forest of areas with multi-part names of distinct files; nested single-name areas and areas sharing a file break it (negations proved)."
  },
  {
   "property": "C16",
   "status": "partial",
   "theorems": [
    "V8.Code.C16_no_text_lost_partial",
    "V8.Code.C16_repeated_area_lost",
    "V8.Code.C16_root_area_loses"
   ],
   "note": "False of the code for repeated area names (negation proved)."
  },
  {
   "property": "C17",
   "status": "partial",
   "theorems": [
    "V8.Code.C17_reported_iff_partial",
    "V8.Code.C17_unclosed_accepted",
    "V8.Code.C17_one_extra_closing_accepted"
   ],
   "note": "Exactly characterised; unclosed areas and one extra closing are accepted (negations proved)."
  },
  {
   "property": "C18",
   "status": "partial",
   "theorems": [
    "V8.Descent.C18_newest_not_newer_partial",
    "V8.Descent.C18_sibling_confused"
   ],
   "note": "Proved when no sibling looks like a version; siblings whose name extends the stem break it (negation proved)."
  },
  {
   "property": "C19",
   "status": "partial",
   "theorems": [
    "V8.Descent.C19_older_undisturbed_partial",
    "V8.Descent.C19_new_file_stops_older_build",
    "V8.Descent.C19_second_extraction_erases"
   ],
   "note": "Proved for histories of saves; a whole extraction empties the folder first and a new file stops older builds (negations proved)."
  },
  {
   "property": "C20",
   "status": "proved",
   "theorems": [
    "V8.Descent.C20_saved_is_built",
    "V8.Descent.C20_save_succeeds",
    "V8.Descent.C20_saved_is_built_history",
    "V8.Versions.C20_save_on_disk",
    "V8.Versions.C20_bytes_on_disk",
    "V8.Versions.C20_module_on_disk",
    "V8.Versions.C20_unchanged_on_disk",
    "V8.Versions.C20_changed_on_disk"
   ],
   "note": "Names with a dot and without look-alike siblings. The on_disk theorems are about a whole disk with bytes: one file is saved beside its other versions, with the two ways of comparing (bytes; for modules the text, whatever line ends and byte order mark)."
  },
  {
   "property": "C21",
   "status": "partial",
   "theorems": [
    "V8.Descent.C21_suffix_removed_partial",
    "V8.Descent.C21_short_unchanged",
    "V8.Descent.C21_word_unchanged",
    "V8.Descent.C21_zero_padded_lost",
    "V8.Descent.C21_numeric_name_changed"
   ],
   "note": "Adding then removing is proved; names ending in a number part are not returned unchanged (negations proved)."
  },
  {
   "property": "C22",
   "status": "proved",
   "theorems": [
    "V8.Index.C22_nothing_changed",
    "V8.Index.C22_folders_kept",
    "V8.Index.C22_every_file_listed",
    "V8.Index.C22_only_files_added",
    "V8.Index.C22_idempotent"
   ],
   "note": ""
  },
  {
   "property": "C23",
   "status": "proved",
   "theorems": [
    "V8.Index.C23_exact_entry",
    "V8.Index.C23_wildcard",
    "V8.Index.C23_unindexed_stays",
    "V8.Index.C23_no_index",
    "V8.Index.C23_written_where_read",
    "V8.Index.C23_empty_wildcard_moves"
   ],
   "note": "An empty \"*\" entry moves files (C23_empty_wildcard_moves)."
  },
  {
   "property": "C24",
   "status": "partial",
   "theorems": [
    "V8.Index.C24_indexed_packed",
    "V8.Index.C24_wildcard_packed",
    "V8.Index.C24_only_indexed",
    "V8.Index.C24_own_packed",
    "V8.Index.C24_any_schedule",
    "V8.Index.C24_index_wins_plain",
    "V8.Index.C24_code_race",
    "V8.Index.C24_wildcard_folder_missing",
    "V8.Index.C24_exact_after_wildcard_twice"
   ],
   "note": "\"Exactly once\" is false for modules present both in the index and the folder (race, proved), for \"*\" before exact entries, and wildcard folders not found in the current directory are silently dropped."
  },
  {
   "property": "C25",
   "status": "proved",
   "theorems": [
    "V8.Encode.C25_same_results",
    "V8.Encode.C25_failure_reported"
   ],
   "note": ""
  },
  {
   "property": "C26",
   "status": "proved",
   "theorems": [
    "V8.Encode.C26_each_once_children_first",
    "V8.Encode.C26_no_id_twice",
    "V8.Encode.C26_ids_as_text",
    "V8.Encode.C26_empty_parent_fails"
   ],
   "note": "For trees with distinct folder names in which an object with nested folders has at least one readable nested object (otherwise the build fails with KeyError: C26_empty_parent_fails); the order condition is discharged by C27_product_schedule_independent."
  },
  {
   "property": "C27",
   "status": "proved",
   "theorems": [
    "V8.Encode.C27_auto_in_name_order",
    "V8.Encode.C27_recorded_order",
    "V8.Encode.C27_missing_reported",
    "V8.Encode.C27_delivery_order_irrelevant",
    "V8.Encode.C27_product_schedule_independent",
    "V8.Encode.C27_unrecorded_dropped",
    "V8.Encode.C27_all_missing_unreported"
   ],
   "note": "Unrecorded objects are dropped silently and a type without any delivered object is left unfilled silently (both proved)."
  },
  {
   "property": "C28",
   "status": "partial",
   "theorems": [
    "V8.Module.C28_build_extract_partial",
    "V8.Module.C28_extract_build_partial",
    "V8.Module.C28_sources_stable",
    "V8.Module.C28_bare_directive_commented",
    "V8.Module.C28_other_directive_lost"
   ],
   "note": "Exact characterisation of the texts that survive in each direction; the property is false for bare directives in stored code and for other directives behind the marker (proved)."
  },
  {
   "property": "C29",
   "status": "partial",
   "theorems": [
    "V8.Module.C29_code_back",
    "V8.Module.C29_value_back_iff",
    "V8.Module.C29_form_rebuilt",
    "V8.Module.C29_edited_code",
    "V8.Module.C29_raw_value_changed"
   ],
   "note": "Code round trip for all texts, whole form with the code slot in either place; false when the value in the slot is not a string literal (proved)."
  },
  {
   "property": "C30",
   "status": "partial",
   "theorems": [
    "V8.Form.C30_managed_form_round_trip_partial",
    "V8.Form.C30_managed_form_round_trip_plain",
    "V8.Form.C30_same_path_lost_neg",
    "V8.Form.C30_includr_inside_name_neg",
    "V8.Form.C30_area_link_truncated_neg",
    "V8.Form.C30_unread_attribute_loses_data_neg",
    "V8.Form.C30_table_size",
    "V8.Form.C30_group_size"
   ],
   "note": "managed forms (FormElements4), all nestings and counts; conditions are explicit and each has a proved counterexample; ordinary forms: see C31"
  },
  {
   "property": "C31",
   "status": "partial",
   "theorems": [
    "V8.OForm.C31_pages_round_trip_partial",
    "V8.OForm.C31_pages_named",
    "V8.OForm.C31_entry_after_pages_lost_neg",
    "V8.OForm.C31_descriptions_without_pages_lost_neg",
    "V8.OForm.C31_page_called_pages_fails_neg",
    "V8.OForm.C31_same_page_name_neg"
   ],
   "note": "holds for panels in the usual form; four ways it fails otherwise are proved"
  },
  {
   "property": "C32",
   "status": "partial",
   "theorems": [
    "V8.Areas.C32_areas_round_trip_partial",
    "V8.Areas.C32_area_root_lost_neg",
    "V8.Areas.C32_same_area_twice_neg",
    "V8.Areas.C32_includr_inside_area_fails_neg",
    "V8.Areas.C32_includr_without_file_neg"
   ],
   "note": "holds for include_ areas with distinct files; the other cases are proved to lose elements or to fail"
  },
  {
   "property": "C33",
   "status": "partial",
   "theorems": [
    "V8.Header.C33_rebuilt",
    "V8.Header.C33_rebuilt_iff_partial",
    "V8.Header.C33_nested_prefix_lost",
    "V8.Header.C33_prefix_added",
    "V8.Header.C33_native_iff",
    "V8.Header.C33_uuid"
   ],
   "note": "exact characterisation of when the header comes back; false for nested and borrowed objects (they lose the prefix) and for first-level objects without the prefix (they get it)"
  },
  {
   "property": "C34",
   "status": "partial",
   "theorems": [
    "V8.Module.C34_unquote_quote",
    "V8.Module.C34_quote_unquote_iff",
    "V8.Module.C34_literal_kept",
    "V8.Module.C34_name_in_file_partial",
    "V8.Module.C34_quote_not_doubled"
   ],
   "note": "Inverse on all strings as functions; through the brace file only for names without quotes, false otherwise (proved)."
  },
  {
   "property": "C35",
   "status": "proved",
   "theorems": [
    "V8.ExtExc.C35_class",
    "V8.ExtExc.C35_class_lost",
    "V8.ExtExc.C35_message",
    "V8.ExtExc.C35_message_override",
    "V8.ExtExc.C35_history_kept",
    "V8.ExtExc.C35_one_entry",
    "V8.ExtExc.C35_from_plain",
    "V8.ExtExc.C35_dump"
   ],
   "note": ""
  },
  {
   "property": "C36",
   "status": "proved",
   "theorems": [
    "V8.Misc.C36_accepted_iff",
    "V8.Misc.C36_releases"
   ],
   "note": ""
  },
  {
   "property": "C37",
   "status": "proved",
   "theorems": [
    "V8.Module.C37_detect",
    "V8.Module.C37_utf8",
    "V8.Module.C37_module_encoding"
   ],
   "note": ""
  },
  {
   "property": "C38",
   "status": "proved",
   "theorems": [
    "V8.C38_times"
   ],
   "note": ""
  },
  {
   "property": "C39",
   "status": "proved",
   "theorems": [
    "V8.Misc.C39_handler_iff",
    "V8.Misc.C39_same_at_build",
    "V8.Misc.C39_encoder"
   ],
   "note": "the uuid table MetaDataTypes is a parameter"
  },
  {
   "property": "C40",
   "status": "proved",
   "theorems": [
    "V8.Misc.C40_makedirs",
    "V8.Misc.C40_txt_write",
    "V8.Misc.C40_failed_write_truncates"
   ],
   "note": "outcomes of system calls are an arbitrary sequence"
  },
  {
   "property": "C41",
   "status": "proved",
   "theorems": [
    "V8.Misc.C41_all",
    "V8.Misc.C41_calls",
    "V8.Misc.C41_code",
    "V8.Misc.C41_no_code",
    "V8.Misc.C41_incomplete"
   ],
   "note": ""
  },
  {
   "property": "C42",
   "status": "proved",
   "theorems": [
    "V8.Json.C42_main_wins",
    "V8.Json.C42_sub_entries_kept",
    "V8.Json.C42_nothing_invented",
    "V8.Json.C42_idempotent",
    "V8.Json.C42_refused_iff_clash",
    "V8.Json.C42_check_index_main_wins",
    "V8.Json.C42_lists_grow"
   ],
   "note": "Idempotent without JSON lists (with lists: C42_lists_grow)."
  },
  {
   "property": "C43",
   "status": "proved",
   "theorems": [
    "V8.Misc.C43_table",
    "V8.Misc.C43_listing_order",
    "V8.Misc.C43_configinfo",
    "V8.Misc.C43_configinfo_partial",
    "V8.Misc.C43_stale_tail"
   ],
   "note": "SHA-1 and base64 are a parameter; C43_stale_tail: with no other file the end of the old text stays"
  },
  {
   "property": "C44",
   "status": "proved",
   "theorems": [
    "V8.Misc.C44_extension",
    "V8.Misc.C44_safe",
    "V8.Misc.C44_json_collision"
   ],
   "note": "the Unicode test isalnum is a parameter; C44_json_collision: the extension json is overwritten by the description of the object"
  },
  {
   "property": "C45",
   "status": "partial",
   "theorems": [
    "V8.Form.C45_failed_form_kept",
    "V8.Form.C45_failed_form_builds_partial",
    "V8.Form.C45_unfound_elements_unbuildable_neg",
    "V8.Form.C45_short_slot_unbuildable_neg",
    "V8.Form.C45_short_slot_extracted_neg",
    "V8.OForm.C45_failed_ordinary_form_kept",
    "V8.OForm.C45_failed_ordinary_form_never_builds_neg",
    "V8.OForm.C45_unknown_kind_fails"
   ],
   "note": "managed forms: the data are kept, the build needs the place of the elements; ordinary forms: the data are kept but such a form can never be built"
  },
  {
   "property": "C46",
   "status": "partial",
   "theorems": [
    "V8.Descent.C46_other_versions_erased"
   ],
   "note": "False of the code: the negation is proved for every folder."
  },
  {
   "property": "C47",
   "status": "proved",
   "theorems": [
    "V8.Descent.C47_logical_names",
    "V8.Descent.C47_versions_one_name"
   ],
   "note": ""
  },
  {
   "property": "C48",
   "status": "proved",
   "theorems": [
    "V8.Encode.C48_every_object_decoded_once",
    "V8.Encode.C48_failure_reported"
   ],
   "note": ""
  },
  {
   "property": "C49",
   "status": "partial",
   "theorems": [
    "V8.Module.C49_utf8",
    "V8.Module.C49_cp1251",
    "V8.Module.C49_binary",
    "V8.Module.C49_utf8_same_iff",
    "V8.Module.C49_unix_iff",
    "V8.Module.C49_windows_iff",
    "V8.Module.C49_directives_iff",
    "V8.Module.C49_crlf_lost_on_unix",
    "V8.Module.C49_binary_as_text"
   ],
   "note": "What becomes of the bytes for every content; unchanged exactly when line ends are those of the platform (and directives in stored form). False for CR LF on Unix and for binary modules readable as windows-1251 (proved). The splitting of the module into areas in between is C15."
  },
  {
   "property": "C50",
   "status": "partial",
   "theorems": [
    "V8.Module.C50_protected_module_lost",
    "V8.Module.C50_deleted_source_built_empty"
   ],
   "note": "False of the code: proved for every protected module."
  },
  {
   "property": "C51",
   "status": "partial",
   "theorems": [
    "V8.Misc.C51_one_partial",
    "V8.Misc.C51_depends_on_listing"
   ],
   "note": "false for two containers"
  },
  {
   "property": "C52",
   "status": "partial",
   "theorems": [
    "V8.Embed.C52_base64",
    "V8.Embed.C52_token_iff",
    "V8.Embed.C52_html_large",
    "V8.Embed.C52_html_absent",
    "V8.Embed.C52_html_partial",
    "V8.Embed.C52_html_empty_lost",
    "V8.Embed.C52_image_partial",
    "V8.Embed.C52_picture_partial",
    "V8.Embed.C52_picture_lost",
    "V8.Embed.C52_template_big",
    "V8.Embed.C52_template_partial",
    "V8.Embed.C52_template_one_line",
    "V8.Embed.C52_template_lost"
   ],
   "note": "proved for base64 text in the usual form and non-empty data; empty pages and pictures, pictures without data, one-line templates are changed or lost (proved)"
  },
  {
   "property": "C53",
   "status": "partial",
   "theorems": [
    "V8.OForm.C53_ordinary_form_round_trip_partial",
    "V8.OForm.C53_element_without_name_neg",
    "V8.OForm.C53_same_element_name_neg",
    "V8.OForm.C53_element_hides_page_neg",
    "V8.OForm.C53_entries_after_elements_moved_neg"
   ],
   "note": "without the option auto_include; forms in the usual form with distinct paths"
  },
  {
   "property": "C54",
   "status": "partial",
   "theorems": [
    "V8.Areas.C54_shared_elements_in_place_partial",
    "V8.Areas.C54_pages_of_includr_lost_neg"
   ],
   "note": "elements: proved; the list of pages of an includr_ panel is proved to be lost"
  },
  {
   "property": "C55",
   "status": "partial",
   "theorems": [
    "V8.Product.C55_comment_mark",
    "V8.Product.C55_processor_comment",
    "V8.Product.C55_inner_processor_comment",
    "V8.Product.C55_extension_comment",
    "V8.Product.C55_comment_kept",
    "V8.Product.C55_comment_last_wins",
    "V8.Product.C55_comment_literal",
    "V8.Product.C55_text_behind_mark_lost",
    "V8.Product.C55_version_round_trip",
    "V8.Product.C55_batch_prefix_piles_up",
    "V8.Product.C55_batch_version_changes",
    "V8.Product.C55_missing_version_erased",
    "V8.Product.C55_extension_round_trip"
   ],
   "note": "comments: proved, with the limit that the mark inside a word (Driver:) is taken too; version: proved outside batch mode, in batch mode the product name piles up with every round and a missing version.bin erases the version (proved)"
  },
  {
   "property": "C56",
   "status": "partial",
   "theorems": [
    "V8.Product.C56_mode_round_trip",
    "V8.Product.C56_mode_replaced",
    "V8.Product.C56_recorded_mode_wins",
    "V8.Product.C56_extraction_ignores_option",
    "V8.Product.C56_prefix_replaced"
   ],
   "note": "proved for builds; extraction ignores the option (proved)"
  },
  {
   "property": "C57",
   "status": "partial",
   "theorems": [
    "V8.Nested.C57_lists_round_trip",
    "V8.Nested.C57_automatic_lists_partial",
    "V8.Nested.C57_automatic_order",
    "V8.Nested.C57_every_listed_object_found",
    "V8.Nested.C57_one_list_per_type",
    "V8.Nested.C57_inner_objects_of_product_lost_neg",
    "V8.Nested.C57_type_names_left_neg"
   ],
   "note": "proved for objects; false for inner objects of a product without auto_include and for products extracted with auto_include and built without (both proved); with auto_include the original order comes back only if it was the order of the names"
  },
  {
   "property": "C58",
   "status": "proved",
   "theorems": [
    "V8.JsonText.C58_round_trip",
    "V8.JsonText.C58_files_differ",
    "V8.JsonText.C58_cut_file_refused",
    "V8.JsonText.C58_bare_number_cut"
   ],
   "note": "for lists and dicts (the only values the tool writes) the refusal of cut files holds at every byte; the model follows the pure Python version of the json module"
  },
  {
   "property": "C59",
   "status": "proved",
   "theorems": [
    "V8.Object.C59_brace_file_round_trip",
    "V8.Object.C59_object_rebuilt",
    "V8.Object.C59_object_rebuilt_auto",
    "V8.Object.C59_object_bytes",
    "V8.Store.C59_version_recorded",
    "V8.Object.C59_identifiers_kept_apart",
    "V8.Object.C59_identifiers_left",
    "V8.Object.C59_version_in_comment",
    "V8.Object.C59_comment_left"
   ],
   "note": "from the bytes of the file in the container to the bytes of the JSON files and back; modules, forms and other files of the object are separate claims"
  },
  {
   "property": "C60",
   "status": "proved",
   "theorems": [
    "V8.Store.C60_object_files",
    "V8.Store.C60_inner_object",
    "V8.Store.C60_exactly",
    "V8.Store.C60_classes_good",
    "V8.Store.C60_module_with_empty_info_lost",
    "V8.Store.C60_json_missing"
   ],
   "note": "All files of an object, through the JSON description and the source files. Conditions of the theorem are those of C59 and C49 (text of a module without a lone CR etc.), and an `info` file of a module folder is not empty: C60_module_with_empty_info_lost shows that such a module is lost by the code. Not in the table: AccountingRegister, pictures, web service references, templates (C63) and forms (C64); all are in C61."
  },
  {
   "property": "C61",
   "status": "proved",
   "theorems": [
    "V8.Tree.C61_tree",
    "V8.Tree.C61_container",
    "V8.Tree.C61_classes",
    "V8.Tree.C61_types_distinct",
    "V8.Tree.C61_type_names_lead_back",
    "V8.Tree.C61_types_without_class",
    "V8.Tree.C61_nested_in_itself_neg",
    "V8.Tree.C61_same_name_neg",
    "V8.Tree.C61_json_missing_silent",
    "V8.Tree.C61_only_child_missing_neg",
    "V8.Tree.C61_container_of",
    "V8.Tree.C61_no_container",
    "V8.Tree.C61_folders_ignored",
    "V8.Tree.C61_forms"
   ],
   "note": "Conditions on the single objects are those of C33, C49, C52, C57, C59, C60. Every class of the tool takes part: templates, pictures, web service references, accounting registers (C63) and all forms (C64), which are told the identifier of the object they stand in (C61_container_of). Also proved: objects nested in themselves and objects that share type and name are never extracted; an object without one of its JSON files is left out of a build silently with everything in it."
  },
  {
   "property": "C62",
   "status": "proved",
   "theorems": [
    "V8.Root.C62_product",
    "V8.Root.C62_container",
    "V8.Root.C62_no_extension_type",
    "V8.Root.C62_same_version",
    "V8.Root.C62_one_list_per_type",
    "V8.Root.C62_processor_root_rewritten",
    "V8.Root.C62_processor_root_lost_neg",
    "V8.Root.C62_name_written_as_described",
    "V8.Root.C62_prefix_taken_off",
    "V8.Root.C62_folder_of_extension_lost_neg",
    "V8.Root.C62_module_source",
    "V8.Root.C62_names_configuration",
    "V8.Root.C62_names_extension",
    "V8.Root.C62_names_processor",
    "V8.Root.C62_modules_of",
    "V8.Root.C62_versions"
   ],
   "note": "Proved for products in the layout of the serializer with nested objects of all classes, forms included (C60, C61, C63, C64), each in the shape those claims ask for. Limits proved: two lists of one type cannot be extracted; the file root of an external data processor is always rewritten; a prefix taken off the name of the product is not put back; a folder in the place of .8/.9 of an extension is lost."
  },
  {
   "property": "C63",
   "status": "partial",
   "theorems": [
    "V8.Leaf.C63_object",
    "V8.Leaf.C63_header",
    "V8.Leaf.C63_other_version",
    "V8.Leaf.C63_picture_source",
    "V8.Leaf.C63_type_recorded",
    "V8.Leaf.C63_copied_source",
    "V8.Leaf.C63_text_source",
    "V8.Leaf.C63_page_source",
    "V8.Leaf.C63_binary_source",
    "V8.Leaf.C63_reference_source",
    "V8.Leaf.C63_reference_file_lost",
    "V8.Leaf.C63_picture_json_lost",
    "V8.Tree.C63_accounting_header",
    "V8.Tree.C63_accounting_files",
    "V8.Tree.C63_classes"
   ],
   "note": "C63_object is proved for images and pages in the usual base64 spelling, UTF-8 texts, binary data that are one base64 text (any the serializer writes: C12), comments whose last word is neither json nor c1b64. The property is false without this, proved: a picture with the word json in its comment loses its image; a reference whose data are a plain file loses it; a template of another version is not extracted; C52 has the pictures without image and the binary templates that are lost. Texts in UTF-16 or windows-1251 are not modelled."
  },
  {
   "property": "C64",
   "status": "partial",
   "theorems": [
    "V8.FormObj.C64_object",
    "V8.FormObj.C64_header",
    "V8.FormObj.C64_type",
    "V8.FormObj.C64_managed_partial",
    "V8.FormObj.C64_managed_failed_partial",
    "V8.FormObj.C64_ordinary_partial",
    "V8.FormObj.C64_ordinary_auto_partial",
    "V8.FormObj.C64_ordinary_other",
    "V8.FormObj.C64_managed_code",
    "V8.FormObj.C64_ordinary_code",
    "V8.FormObj.C64_edited_module",
    "V8.FormObj.C64_shape_neg",
    "V8.FormObj.C64_managed_missing_neg",
    "V8.FormObj.C64_ordinary_second_lost_neg",
    "V8.FormObj.C64_binary_module_neg",
    "V8.FormObj.C64_module_added_neg",
    "V8.FormObj.C64_ordinary_failed_neg",
    "V8.FormObj.C64_form_classes",
    "V8.FormObj.C64_page_recorded"
   ],
   "note": "partial because the property is false without the conditions of C30, C53 and C49 (unambiguous names, a module that is a text and comes back): the negations are proved; ordinary forms with auto_include come back if they are numbered as a build numbers them (C69, C70)"
  },
  {
   "property": "C65",
   "status": "proved",
   "theorems": [
    "V8.Stage.C65_wrap_unwrap",
    "V8.Stage.C65_wrap_succeeds",
    "V8.Stage.C65_configinfo",
    "V8.Stage.tiny_ok",
    "V8.Stage.C65_container_becomes_folder",
    "V8.Stage.C65_mark_fails",
    "V8.Stage.C65_empty_module",
    "V8.Stage.C65_nested_folder"
   ],
   "note": "zlib is a parameter with the properties ZlibOk (met by a part of DEFLATE, tiny_ok). Files that begin like a container (FF FF FF 7F) are excluded: proved to come back as folders or to make the extraction fail; an empty module folder and folders in module folders cannot be built (proved)."
  },
  {
   "property": "C66",
   "status": "proved",
   "theorems": [
    "V8.Org.C66_folder_back",
    "V8.Org.C66_runs",
    "V8.Org.C66_outside_kept",
    "V8.Org.C66_any_schedule",
    "V8.Org.C66_single_name_neg"
   ],
   "note": "No versions and no index but the table of areas. Areas must lie outside the source folder (names of several words): for one-word names the build is proved to get an additional file. Areas that share a file must have equal text (C15_same_file_mixed)."
  },
  {
   "property": "C67",
   "status": "proved",
   "theorems": [
    "V8.Whole.C67_product_file",
    "V8.Whole.C67_listed",
    "V8.Whole.C67_configinfo",
    "V8.Stage.C65_wrap_unwrap",
    "V8.Root.C62_product",
    "V8.Root.C62_listed"
   ],
   "note": "The container stages (C65) and the decoder stages (C62) put together. The organizer between them is C66; it is not part of this composition, since the files of form elements come back as the same elements but not the same bytes. Objects must be in the layout of the serializer and fit (ProductOk, InnerOk), as in C62; zlib is a parameter with the property ZlibOk, SHA-1 is a parameter."
  },
  {
   "property": "C68",
   "status": "proved",
   "theorems": [
    "V8.Pipe.C68_extract_build",
    "V8.Pipe.C68_any_layout",
    "V8.Pipe.C68_names",
    "V8.Whole.C67_listed",
    "V8.Org.C66_folder_back",
    "V8.Org.C66_runs",
    "V8.Root.C62_listed",
    "V8.Tree.C61_listed"
   ],
   "note": "C67 with the organizer (C66) in between. The files of form elements come back as the same elements, not the same bytes: extraction and build depend only on the elements (Stands, steady_stands). Conditions: those of C67 for the product, those of C66 (Ready) for the include areas; folders without files are not modelled. C68_names: no class of the tool has a file that the organizer would take for form elements."
  },
  {
   "property": "C69",
   "status": "partial",
   "theorems": [
    "V8.OAuto.C69_renumbered_partial",
    "V8.OAuto.C69_first_end_tied",
    "V8.OAuto.C69_second_end_tied",
    "V8.OAuto.C69_includr_neg",
    "V8.OAuto.C69_page_without_name_neg",
    "V8.OAuto.C69_other_panel_neg",
    "V8.OAuto.C69_no_pages_neg",
    "V8.OAuto.C69_failed_form_emptied_neg",
    "V8.OAuto.C69_failed_form_neg"
   ],
   "note": "renumForm (Verif/OFormRenum.lean) is the specification. Partial: for forms that extraction takes apart, with panels in the usual form, different numbers within a panel, names for all pages and elements, different paths, no includr without _ behind it in a path, and attributes with different names and identifiers. The _neg theorems show what happens otherwise."
  },
  {
   "property": "C70",
   "status": "partial",
   "theorems": [
    "V8.OAuto.C70_second_round_partial",
    "V8.OAuto.C70_numbered_once"
   ],
   "note": "Partial: under the conditions of C69 on the first form only; that the second form meets them too is proved. C70_numbered_once is the statement about the specification renumForm alone."
  },
  {
   "property": "C71",
   "status": "partial",
   "theorems": [
    "V8.Crash.C71_stopped",
    "V8.Crash.C71_all_or_nothing",
    "V8.Crash.C71_failed_build",
    "V8.Crash.C71_silent_loss_neg",
    "V8.Crash.C71_record",
    "V8.Crash.C71_finished"
   ],
   "note": "Partial because false of the code: C71_silent_loss_neg (products of at most 42 files whose last file is short can lose that file without an error, because the table of contents is overwritten in place and its unwritten rest of zeros is skipped, and the size computed for a short table is larger than the table). Proved: every other stop point and every failing build is noticed, files that are given are never damaged, more than 42 files are all or nothing. The order of bytes on disk is the order of the write calls (no reordering by the operating system); one container per file; products below 2 GiB."
  },
  {
   "property": "C72",
   "status": "partial",
   "theorems": [
    "V8.Path.C72_entries_inside",
    "V8.Path.C72_entry_place",
    "V8.Path.C72_entry_escapes_neg",
    "V8.Path.C72_object_inside",
    "V8.Path.C72_object_escapes_neg",
    "V8.Path.C72_area_place",
    "V8.Path.C72_area_escapes_neg"
   ],
   "note": "Partial because false of the code: for every place in the file system and every content there is a product from which extraction writes that content there (C72_entry_escapes_neg; the same for the folders of objects and the files of areas). Proved: entry names, object names that are single names stay inside, each at its own place; where any name leads (C72_entry_place); the text-path computation for areas agrees with the model used by C15/C49 (C72_area_place). Paths are POSIX paths, no symbolic links."
  },
  {
   "property": "C73",
   "status": "partial",
   "theorems": [
    "V8.Top.C73_build_touches",
    "V8.Top.C73_build_keeps_sources",
    "V8.Top.C73_extract_touches",
    "V8.Top.C73_bad_index",
    "V8.Top.C73_empty_index_neg",
    "V8.Top.C73_build_empties_temp_neg",
    "V8.Top.C73_extract_destroys_neg",
    "V8.Top.C73_build_product",
    "V8.Top.C73_temp_removed",
    "V8.Top.C73_build_history",
    "V8.Top.C73_extract_history"
   ],
   "note": "Partial because false of the code: extraction empties the folder of sources before it looks for the product, so a wrong file name or a product inside that folder destroys the sources (C73_extract_destroys_neg); a temporary folder that is given is emptied with everything in it, the sources included (C73_build_empties_temp_neg); an index without entries makes both commands return normally without doing anything (C73_empty_index_neg). The stages are parameters that keep to their folders (C72 says when they do) and read only their inputs."
  },
  {
   "property": "C74",
   "status": "partial",
   "theorems": [
    "V8.OrgIndex.C74_folder_back",
    "V8.OrgIndex.C74_where",
    "V8.OrgIndex.C74_outside_kept",
    "V8.OrgIndex.C74_any_schedule",
    "V8.OrgIndex.C74_runs",
    "V8.OrgIndex.C74_stale_entry_neg",
    "V8.OrgIndex.C74_moved_area_neg"
   ],
   "note": "Partial: * entries are not covered, and the property is false of an index with an entry for a file the product no longer has (the old file, which extraction leaves alone, is built in again, or the build fails: C74_stale_entry_neg) and of a module moved by the index with an area named by one word (written beside the sources, looked for beside the moved file: C74_moved_area_neg). Files of elements are kept as their elements (C58 is about their text)."
  },
  {
   "property": "C75",
   "status": "partial",
   "theorems": [
    "V8.Versions.C75_folder_back",
    "V8.Versions.C75_where",
    "V8.Versions.C75_outside",
    "V8.Versions.C75_any_schedule",
    "V8.Versions.C75_runs",
    "V8.Versions.C75_older_fails",
    "V8.Versions.C75_listing_order_neg",
    "V8.Versions.C75_unversioned_sources_neg",
    "V8.Versions.C75_no_extension_neg"
   ],
   "note": "Partial: into an empty folder of sources (extraction empties it) and without an index of files; for all versions, the base version 0 included (then no name may itself look like one with a version, Fit.base). False of names that extend each other: whether extraction succeeds depends on the order of listing (C75_listing_order_neg); and of sources laid out without a version that hold a name such as Configuration.802.bsl: it is lost from the product when they are built with a version (C75_unversioned_sources_neg); and of files without an extension, such as the splash screen of a configuration: no such file is in the sources under its name, and the build gives none (C75_no_extension_neg)."
  },
  {
   "property": "C76",
   "status": "partial",
   "theorems": [
    "V8.Pipe.C76_with_version",
    "V8.Pipe.C76_with_index",
    "V8.Pipe.C76_with_stars",
    "V8.Pipe.C76_with_version_and_index",
    "V8.Pipe.C68_any_layout"
   ],
   "note": "Partial: under the hypotheses of C68 (product well-formed) and of C75 (names that do not look like versions of one another, every file with an extension) or C74 (index without * entries, to files outside the sources) or C77 (index with * entries, build run from the folder around the sources) or C79 (version and index together). C68_any_layout: whatever layout gives the decoded folder back gives the product back. With a version it is false of a configuration with a splash screen (C75_no_extension_neg)."
  },
  {
   "property": "C77",
   "status": "partial",
   "theorems": [
    "V8.OrgIndex.C77_folder_back",
    "V8.OrgIndex.C77_where",
    "V8.OrgIndex.C77_any_schedule",
    "V8.OrgIndex.C77_runs",
    "V8.OrgIndex.C77_elsewhere_neg",
    "V8.OrgIndex.C77_exception_neg",
    "V8.OrgIndex.C77_renamed_neg",
    "V8.OrgIndex.C77_excluding_neg",
    "V8.Pipe.C76_with_stars"
   ],
   "note": "Partial: proved if the build is run from the folder around the sources, the folders of the * entries have no files but those of the product the entries are for, and no entry moves another file there; without versions. False otherwise: run elsewhere the moved files are left out of the product without an error (C77_elsewhere_neg); a documented exception (null) is not one for the build: a file of that name in the shared folder is taken instead of the own one (C77_exception_neg); a file moved under another name into the folder is packed twice (C77_renamed_neg); keys such as *-a-b are for the build only, extraction moves nothing (C77_excluding_neg)."
  },
  {
   "property": "C78",
   "status": "partial",
   "theorems": [
    "V8.Cli.C78_as_api",
    "V8.Cli.C78_exit",
    "V8.Cli.C78_batch",
    "V8.Cli.C78_batch_options",
    "V8.Cli.C78_update",
    "V8.Cli.C78_update_batch",
    "V8.Cli.C78_version_kept",
    "V8.Cli.C78_descent_zero_neg",
    "V8.Cli.C78_ignored_neg",
    "V8.Cli.C78_empty_index_neg"
   ],
   "note": "Partial: argparse is not modelled (the model starts from parsed arguments); proved for -E and -B if no option is given empty and the version is not 0, and for the batches. False otherwise: --descent 0, the documented base version, is dropped (a failed extraction then deletes the sources which the function would have kept: C78_descent_zero_neg); --processes has no effect at all and in batches no option but --index has one (C78_ignored_neg); with an index without entries nothing is done and the exit code is 0 (C78_empty_index_neg)."
  },
  {
   "property": "C79",
   "status": "partial",
   "theorems": [
    "V8.VersIndex.C79_folder_back",
    "V8.VersIndex.C79_where",
    "V8.VersIndex.C79_outside",
    "V8.VersIndex.C79_any_schedule",
    "V8.VersIndex.C79_runs",
    "V8.VersIndex.C79_inside_neg"
   ],
   "note": "Partial: for indexes without * entries that fit the product (IndexFit, NoOther), files that stay having names with an extension that are in no other name's way (Fit; all versions, the base version 0 included). False if an entry names a file inside the source folder or in a folder whose path merely begins with its text (/p/src_common for /p/src): it is saved with a version and looked for without one (C79_inside_neg)."
  },
  {
   "property": "C80",
   "status": "partial",
   "theorems": [
    "V8.Pipe.C80_extract_build_extract",
    "V8.Pipe.C80_any_layout",
    "V8.Root.C80_product",
    "V8.Tree.C80_tree",
    "V8.Root.C80_same_table",
    "V8.Root.C80_new_ids_neg"
   ],
   "note": "Partial: under the hypotheses of C67/C68 and AgainOk (no object has a file named versions or configinfo, names of files without quotes and of at most 62 characters, so that the table is read as written, and for an extension a configinfo without wrapped lines and placeholder). The exception is real: sources of a configuration tell two builds with different random identifiers apart (C80_same_table, C80_new_ids_neg)."
  },
  {
   "property": "C81",
   "status": "partial",
   "theorems": [
    "V8.Edit.C81_extract_edit_build",
    "V8.Edit.C81_extract_edit_build_nested",
    "V8.Edit.C81_product_module",
    "V8.Edit.C81_nested_module",
    "V8.Edit.C81_added_module_ignored_neg",
    "V8.Edit.C81_binary_module_ignored_neg",
    "V8.Edit.C81_unencodable_neg",
    "V8.Edit.C81_added_after_extraction_neg"
   ],
   "note": "Partial: modules of the classes that keep them in files of their own (the product, objects with files, commands and the like); form modules are C64_edited_module. The sources are compared as folders; the path from the disk to the folders is C67/C68 (Shows). Hypotheses of C62 for the extracted product. The negative theorems state the exceptions of the English claim."
  },
  {
   "property": "C82",
   "status": "partial",
   "theorems": [
    "V8.Folders.C82_extract_remove_build",
    "V8.Folders.C82_extract_add_build",
    "V8.Folders.C82_product",
    "V8.Folders.lists_grown",
    "V8.Folders.lists_ready",
    "V8.Folders.C82_without_auto_neg",
    "V8.Folders.C82_first_of_type_neg",
    "V8.Folders.C82_nested_removed_neg",
    "V8.Folders.C82_nested_last_removed_neg",
    "V8.Folders.C82_nested_added_neg"
   ],
   "note": "Partial: folders of the objects of the product itself; for objects nested deeper there are the three C82_nested theorems on one object without auto_include. The last folder is left out (C57_type_names_left_neg says what happens). Hypotheses of C62 for the extracted product; the added folder is one that builds by itself and delivers one entry (C61_container makes such folders). The header is compared by OneMore: one list, of the type, one entry more, number right, at least three levels down; the place in the list is the one of its name (C57)."
  },
  {
   "property": "C83",
   "status": "proved",
   "theorems": [
    "V8.Describe.C83_extract_header_build",
    "V8.Describe.C83_extract_rename_build",
    "V8.Describe.C83_extract_rename_build_auto",
    "V8.Describe.C83_name",
    "V8.Describe.C83_header",
    "V8.Describe.C83_product_header",
    "V8.Describe.C83_product_name",
    "V8.Describe.C83_product_name_auto",
    "V8.Describe.C83_comment_neg",
    "V8.Describe.describable"
   ],
   "note": "For classes that keep their description in JSON files of their own (kind .file; not common forms and not objects inside the file of another one). Header edits: classes without identifiers in the id file and without the version in the comment. Name edits at the level of the product: objects of the product itself; C83_name has the nested ones (their file stays as it is). With auto_include the two products are compared with the product without the object (GrownBy, OneMore, as in C82). Hypotheses of C62 for the extracted product. describable: every extracted description can be given every name and all header data."
  },
  {
   "property": "C84",
   "status": "proved",
   "theorems": [
    "V8.Order.C84_product",
    "V8.Order.C84_outcome",
    "V8.Order.SameFiles.files",
    "V8.Order.dir_order",
    "V8.Order.classes_fair",
    "V8.Order.Unambiguous.renamed",
    "V8.Order.entry_known",
    "V8.Order.C84_same_name_neg"
   ],
   "note": "Renamed: the same files in each folder, the folders of nested objects permuted and renamed at every level. Unambiguous: at every place the objects delivered by a build have distinct names and identifiers per type (identifiers in any case). No hypothesis on the classes of the tool: classes_fair shows that all of them build the same from the same files. entry_known: what an extracted object of a file class delivers, which gives Unambiguous for an extracted tree (example in OrderEx)."
  },
  {
   "property": "C85",
   "status": "proved",
   "theorems": [
    "V8.Same.C85_product_files",
    "V8.Same.C85_extract",
    "V8.Same.C85_two_builds",
    "V8.Same.C85_from_product",
    "V8.Same.C85_times_stored_neg",
    "V8.Same.files_alike"
   ],
   "note": "The files versions and configinfo are excepted. zlib is a parameter (ZlibOk), sizes below 2^31. C85_from_product starts from a product, under the conditions of C62 and C67 and Unambiguous (C84); an example in SameEx meets all of them for a tree of depth 3 with renamed folders."
  },
  {
   "property": "C86",
   "status": "partial",
   "theorems": [
    "V8.Stage.C86_one",
    "V8.Stage.C86_read",
    "V8.Stage.C86_two",
    "V8.Stage.C86_places",
    "V8.Stage.C86_listing_neg",
    "V8.Stage.C86_build_ends",
    "V8.Stage.C86_no_round_trip_neg"
   ],
   "note": "Partial because false of the code: whatever is extracted from a product of two containers and built without an error cannot be extracted (C86_no_round_trip_neg, from C03); such builds do end without an error (C86_build_ends); if the second container is listed first it is lost from the sources (C86_listing_neg). Proved: which container is decoded and which is kept, and that products of one container are not concerned. A zip archive is taken as the folder it was made of."
  }
 ]
}