{
 "claims": [
  {
   "property": "C01",
   "status": "proved",
   "theorems": [
    "Hrdc.C01_encode_parse"
   ],
   "note": ""
  },
  {
   "property": "C02",
   "status": "proved",
   "theorems": [
    "Hrdc.C02_wire_format"
   ],
   "note": ""
  },
  {
   "property": "C03",
   "status": "proved",
   "theorems": [
    "Hrdc.C03_shortest_payload"
   ],
   "note": ""
  },
  {
   "property": "C04",
   "status": "proved",
   "theorems": [
    "Hrdc.C04_encode_error_iff"
   ],
   "note": ""
  },
  {
   "property": "C05",
   "status": "proved",
   "theorems": [
    "Hrdc.C05_construct",
    "Hrdc.C05_negative_collection"
   ],
   "note": ""
  },
  {
   "property": "C06",
   "status": "partial",
   "theorems": [
    "Hrdc.C06_extra_bytes_accepted",
    "Hrdc.C06_iff",
    "Hrdc.C06_parse_empty",
    "Hrdc.C06_parse_spec_partial"
   ],
   "note": "C06_parse_spec_partial says exactly when parsing succeeds and with what. Missing, false of the code: with size code 0, bytes after the header are accepted (C06_extra_bytes_accepted). C06_iff: exactly where the claim holds."
  },
  {
   "property": "C07",
   "status": "proved",
   "theorems": [
    "Hrdc.C07_stream_roundtrip"
   ],
   "note": ""
  },
  {
   "property": "C08",
   "status": "proved",
   "theorems": [
    "Hrdc.C08_framing",
    "Hrdc.C08_parse_iff_hid"
   ],
   "note": ""
  },
  {
   "property": "C09",
   "status": "proved",
   "theorems": [
    "Hrdc.C09_truncation"
   ],
   "note": ""
  },
  {
   "property": "C10",
   "status": "proved",
   "theorems": [
    "Hrdc.C10_convert_idempotent",
    "Hrdc.C10_convert_iff"
   ],
   "note": ""
  },
  {
   "property": "C11",
   "status": "proved",
   "theorems": [
    "Hrdc.C11_documents",
    "Hrdc.C11_hex_roundtrip"
   ],
   "note": ""
  },
  {
   "property": "C12",
   "status": "proved",
   "theorems": [
    "Hrdc.C12_code_roundtrip",
    "Hrdc.C12_compiled",
    "Hrdc.C12_documents",
    "Hrdc.C12_newline_in_name_breaks"
   ],
   "note": ""
  },
  {
   "property": "C13",
   "status": "partial",
   "theorems": [
    "Hrdc.C13_any_chain_partial",
    "Hrdc.C13_formats_agree_partial",
    "Hrdc.C13_newline_breaks"
   ],
   "note": "Missing, false of the code: names with a newline (C13_newline_breaks)."
  },
  {
   "property": "C14",
   "status": "partial",
   "theorems": [
    "Hrdc.C14_code_layout_partial",
    "Hrdc.C14_exact",
    "Hrdc.C14_iff",
    "Hrdc.C14_same",
    "Hrdc.C14_slashes_in_block_lose_bytes"
   ],
   "note": "C14_exact, C14_same: what is read from every text, with `//` as a comment inside block comments too; C14_iff: the texts read as the claim says. Missing, false of the code: `//` inside a block comment (C14_slashes_in_block_lose_bytes)."
  },
  {
   "property": "C15",
   "status": "proved",
   "theorems": [
    "Hrdc.C15_hex_reader"
   ],
   "note": ""
  },
  {
   "property": "C16",
   "status": "proved",
   "theorems": [
    "Hrdc.C16_naming_keeps_values",
    "Hrdc.C16_registry_independent"
   ],
   "note": ""
  },
  {
   "property": "C17",
   "status": "proved",
   "theorems": [
    "Hrdc.C17_comparer_exact"
   ],
   "note": ""
  },
  {
   "property": "C18",
   "status": "partial",
   "theorems": [
    "Hrdc.C18_global_merge_meaning_partial",
    "Hrdc.C18_push_pop_breaks",
    "Hrdc.C18_repeats_noPushPop",
    "Hrdc.C18_repeats_partial",
    "Hrdc.C18_states_iff"
   ],
   "note": "C18_states_iff: on every stream, exactly when the state after every prefix is kept; C18_repeats_partial: Push/Pop allowed when repeated items repeat the value in force. Missing, false of the code: other streams with Push/Pop (C18_push_pop_breaks)."
  },
  {
   "property": "C19",
   "status": "proved",
   "theorems": [
    "Hrdc.C19_idempotent",
    "Hrdc.C19_no_redundant_global",
    "Hrdc.C19_sublist"
   ],
   "note": ""
  },
  {
   "property": "C20",
   "status": "partial",
   "theorems": [
    "Hrdc.C20_arrays_break",
    "Hrdc.C20_constant",
    "Hrdc.C20_exact",
    "Hrdc.C20_iff",
    "Hrdc.C20_main_merge_meaning_full_partial",
    "Hrdc.C20_main_merge_meaning_partial",
    "Hrdc.C20_push_pop_breaks",
    "Hrdc.C20_strings_break",
    "Hrdc.C20_trailing_breaks"
   ],
   "note": "Missing: arrays, strings on some of the merged items, Push/Pop, data items at the very end; each is false of the code in a case (the four _break(s) theorems), not in all. C20_exact gives what any stream without Push/Pop and with closed ranges becomes; C20_iff says exactly when its meaning is kept."
  },
  {
   "property": "C21",
   "status": "partial",
   "theorems": [
    "Hrdc.C21_exact",
    "Hrdc.C21_exact_all",
    "Hrdc.C21_iff",
    "Hrdc.C21_iff_all",
    "Hrdc.C21_physical_merge_meaning_partial",
    "Hrdc.C21_push_pop_breaks",
    "Hrdc.C21_reset_before_collection_breaks",
    "Hrdc.C21_return_to_logical_breaks"
   ],
   "note": "Missing, false of the code: physical bounds that come back to the logical ones (C21_return_to_logical_breaks), bounds reset before a collection (C21_reset_before_collection_breaks), Push/Pop (C21_push_pop_breaks). C21_exact_all gives the bounds every main item ends up with in any stream, Push and Pop included; C21_iff_all says exactly when its meaning is kept (C21_exact, C21_iff: a simpler account without Push and Pop)."
  },
  {
   "property": "C22",
   "status": "partial",
   "theorems": [
    "Hrdc.C22_designator_merge_meaning",
    "Hrdc.C22_string_merge_meaning",
    "Hrdc.C22_usage_crossing_breaks",
    "Hrdc.C22_usage_exact",
    "Hrdc.C22_usage_iff",
    "Hrdc.C22_usage_merge_meaning_partial",
    "Hrdc.C22_usage_page_change_breaks",
    "Hrdc.C22_usage_short_partial"
   ],
   "note": "Strings and designators: all streams. Usages: C22_usage_exact and C22_usage_iff give the effect, and when the meaning is kept, on all streams; C22_usage_short_partial: 16-bit usages. Missing, false of the code: 16-bit usages with page changes (C22_usage_page_change_breaks), ranges crossing a page (C22_usage_crossing_breaks)."
  },
  {
   "property": "C23",
   "status": "partial",
   "theorems": [
    "Hrdc.C23_exact",
    "Hrdc.C23_exact_all",
    "Hrdc.C23_iff",
    "Hrdc.C23_iff_all",
    "Hrdc.C23_push_pop_breaks",
    "Hrdc.C23_short_usage_breaks",
    "Hrdc.C23_two_pages_break",
    "Hrdc.C23_usage_page_meaning_atMain_partial",
    "Hrdc.C23_usage_page_meaning_partial"
   ],
   "note": "C23_exact_all and C23_iff_all give the effect, and when the meaning is kept, on all streams, Push and Pop included (C23_exact, C23_iff: a simpler account without Push and Pop). Missing, false of the code: 16-bit usages on a page (C23_short_usage_breaks), Push/Pop (C23_push_pop_breaks) and, for hosts resolving pages at the main item, two pages in one item (C23_two_pages_break)."
  },
  {
   "property": "C24",
   "status": "partial",
   "theorems": [
    "Hrdc.C24_designator_uniq_meaning_partial",
    "Hrdc.C24_exact",
    "Hrdc.C24_iff",
    "Hrdc.C24_split_designators_break"
   ],
   "note": "Missing, false of the code: a designator 0 split from others by a global (C24_split_designators_break). C24_exact gives the exact effect on every stream and C24_iff the exact condition, for every stream."
  },
  {
   "property": "C25",
   "status": "partial",
   "theorems": [
    "Hrdc.C25_converter_iff",
    "Hrdc.C25_converter_meaning_partial",
    "Hrdc.C25_iff",
    "Hrdc.C25_optimizer_meaning_partial",
    "Hrdc.C25_short_converter_iff",
    "Hrdc.C25_short_iff",
    "Hrdc.C25_short_usages_break",
    "Hrdc.C25_unpaged_iff",
    "Hrdc.C25_unreadable",
    "Hrdc.C25_usual_breaks",
    "Hrdc.C25_usual_converter_breaks"
   ],
   "note": "Missing: what C18 and C20-C24 leave out, with counterexamples there. C25_iff and C25_converter_iff (on bytes) say exactly when the meaning is kept, for streams without Push/Pop, with complete usages, closed ranges and kept designators. C25_unpaged_iff, C25_short_iff and C25_short_converter_iff do so for 16-bit usages on any pages: the UsagePage items stop to count. C25_usual_breaks and C25_usual_converter_breaks: every descriptor that begins with a page, a 16-bit usage and a collection, whatever follows, is changed, for both sorts of hosts."
  },
  {
   "property": "C26",
   "status": "proved",
   "theorems": [
    "Hrdc.C26_collections_kept"
   ],
   "note": ""
  },
  {
   "property": "C27",
   "status": "partial",
   "theorems": [
    "Hrdc.C27_compile",
    "Hrdc.C27_exact",
    "Hrdc.C27_iff",
    "Hrdc.C27_push_pop_breaks",
    "Hrdc.C27_report_sizes_kept_partial",
    "Hrdc.C27_trailing_breaks"
   ],
   "note": "C27_exact: what every report of a stream without Push/Pop has, before and after, whatever passes are selected: only fields still to be written at the very end may change, by the report count in force there. C27_iff: exactly when all sizes are kept. C27_report_sizes_kept_partial: streams whose last main item is not a data item. Missing, false of the code: Push/Pop and some data items at the very end (the two _breaks theorems). C27_compile: all sizes are kept for every descriptor that compiles, with no condition."
  },
  {
   "property": "C28",
   "status": "proved",
   "theorems": [
    "Hrdc.C28_default",
    "Hrdc.C28_pass_selection",
    "Hrdc.C28_stages",
    "Hrdc.C28_streaming"
   ],
   "note": ""
  },
  {
   "property": "C29",
   "status": "partial",
   "theorems": [
    "Hrdc.C29_compile_exact_partial",
    "Hrdc.C29_compile_meaning_partial",
    "Hrdc.C29_negative_kind_breaks"
   ],
   "note": "C29_compile_exact_partial says what every tree that compiles means, with no condition, but by a description that follows the streamer's own counting (Proofs/Exact). Against the independent meaning of the tree, missing and false of the code: values after a Report (C35_values_after_report), counts (C32_counts_break), Report(0) after another (C32_zero_report_breaks), negative kinds (C29_negative_kind_breaks), named arrays with a usage (C45_usage_breaks)."
  },
  {
   "property": "C30",
   "status": "partial",
   "theorems": [
    "Hrdc.C30_arrays_break",
    "Hrdc.C30_iff",
    "Hrdc.C30_optimized_exact_partial",
    "Hrdc.C30_optimized_meaning_partial",
    "Hrdc.C30_optimized_pages_partial",
    "Hrdc.C30_optimized_steady_partial",
    "Hrdc.C30_pages_break",
    "Hrdc.C30_physical_breaks",
    "Hrdc.C30_strings_break",
    "Hrdc.C30_trailing_breaks",
    "Hrdc.C30_tree_iff"
   ],
   "note": "Missing: hosts resolving pages at main items, merged arrays, strings, physical bounds, trailing items; each is false of the code in a case (the _break(s) theorems), not in all. C30_iff says exactly when optimizing keeps the meaning, for every descriptor that compiles and hosts completing usages where they are declared. C30_optimized_pages_partial: hosts of both sorts, with a condition on the pages of the tree (C30_pages_break shows it cannot be dropped)."
  },
  {
   "property": "C31",
   "status": "partial",
   "theorems": [
    "Hrdc.C31_bytes_meaning_partial",
    "Hrdc.C31_expected_partial",
    "Hrdc.C31_optimized_bytes_partial",
    "Hrdc.C31_optimized_iff",
    "Hrdc.C31_optimized_pages_partial",
    "Hrdc.C31_report_breaks"
   ],
   "note": "As C29 and C30, on bytes (C31_report_breaks). C31_optimized_iff: exactly when the optimized bytes keep the meaning, under the conditions of C30_tree_iff. C31_optimized_pages_partial: hosts of both sorts read the optimized bytes."
  },
  {
   "property": "C32",
   "status": "partial",
   "theorems": [
    "Hrdc.C32_aligned_partial",
    "Hrdc.C32_bytes_iff",
    "Hrdc.C32_counts_break",
    "Hrdc.C32_iff",
    "Hrdc.C32_iff_case",
    "Hrdc.C32_zero_report_breaks"
   ],
   "note": "Missing, false of the code: values with a count whose further fields break the alignment (C32_counts_break), Report(0) after another report (C32_zero_report_breaks). C32_iff: exactly which elements are aligned, in all descriptors without Report(0) after another report. C32_bytes_iff: the same in the bytes written, with the default optimization too."
  },
  {
   "property": "C33",
   "status": "partial",
   "theorems": [
    "Hrdc.C33_bytes_bound",
    "Hrdc.C33_counts_break",
    "Hrdc.C33_iff",
    "Hrdc.C33_minimal_partial",
    "Hrdc.C33_padding_bound",
    "Hrdc.C33_zero_report_breaks"
   ],
   "note": "C33_padding_bound has no condition on the tree. Missing, false of the code: padding where a count made the streamer lose track (C33_counts_break), Report(0) after another report (C33_zero_report_breaks). C33_iff: exactly where the padding is the least possible, likewise. C32_bytes_iff, C33_bytes_bound: the same in the bytes written, with the default optimization too."
  },
  {
   "property": "C34",
   "status": "proved",
   "theorems": [
    "Hrdc.C34_balanced"
   ],
   "note": ""
  },
  {
   "property": "C35",
   "status": "partial",
   "theorems": [
    "Hrdc.C35_bytes_iff",
    "Hrdc.C35_iff",
    "Hrdc.C35_iff_case",
    "Hrdc.C35_report_exact_partial",
    "Hrdc.C35_report_partial",
    "Hrdc.C35_values_after_report"
   ],
   "note": "C35_report_exact_partial and C35_iff have no condition on the tree: elements are in the report entered last, which tells exactly when it is theirs. Missing, false of the code: values after the end of a Report (C35_values_after_report). C35_bytes_iff: the same in the bytes written, with the default optimization too."
  },
  {
   "property": "C36",
   "status": "partial",
   "theorems": [
    "Hrdc.C36_array_physical_breaks",
    "Hrdc.C36_defaults",
    "Hrdc.C36_fields_partial",
    "Hrdc.C36_raises_partial"
   ],
   "note": "C36_fields_partial and C36_raises_partial say exactly what is kept and when the constructor raises. Against the property, false of the code: the physical maximum of a named array defaults to None (C36_array_physical_breaks); a usage range of negative length raises too."
  },
  {
   "property": "C37",
   "status": "proved",
   "theorems": [
    "Hrdc.C37_no_leakage",
    "Hrdc.C37_same_value"
   ],
   "note": ""
  },
  {
   "property": "C38",
   "status": "partial",
   "theorems": [
    "Hrdc.C38_beside_breaks",
    "Hrdc.C38_exact",
    "Hrdc.C38_nested_breaks",
    "Hrdc.C38_nesting_partial",
    "Hrdc.C38_no_root_partial",
    "Hrdc.C38_no_usage_breaks",
    "Hrdc.C38_no_value_breaks",
    "Hrdc.C38_rebuilt_partial",
    "Hrdc.C38_root_partial",
    "Hrdc.C38_surplus_end",
    "Hrdc.C38_top_breaks"
   ],
   "note": "C38_exact: for every stream whether it is decompiled, and the error otherwise, by a reading of streams that does not refer to the decompiler (Spec/Rebuild.lean); C39_exact and C39_document_exact give the tree, so the nesting that is rebuilt. C38_nesting_partial, C38_rebuilt_partial: conditions that make this what the claim says. The claim is false of the code where data items are taken for named arrays (C38_top_breaks, C38_beside_breaks, C38_nested_breaks, C38_no_usage_breaks, C38_no_value_breaks)."
  },
  {
   "property": "C39",
   "status": "partial",
   "theorems": [
    "Hrdc.C39_array_breaks",
    "Hrdc.C39_document_exact",
    "Hrdc.C39_exact",
    "Hrdc.C39_hosts_partial",
    "Hrdc.C39_iff",
    "Hrdc.C39_named_partial",
    "Hrdc.C39_pages_break",
    "Hrdc.C39_push_breaks",
    "Hrdc.C39_ranges_break",
    "Hrdc.C39_strings_break",
    "Hrdc.C39_values_partial"
   ],
   "note": "C39_exact: for every stream, and C39_document_exact for every document in any format, what the decompiled tree describes or which error is raised; C39_iff: the streams with a tree of the same meaning. C39_values_partial, C39_hosts_partial, C39_named_partial: conditions on the items that are enough. The claim is false of the code for some streams of each sort left out (C39_*_break(s))."
  },
  {
   "property": "C40",
   "status": "proved",
   "theorems": [
    "Hrdc.C40_grouping",
    "Hrdc.C40_reports",
    "Hrdc.C40_stream"
   ],
   "note": ""
  },
  {
   "property": "C41",
   "status": "partial",
   "theorems": [
    "Hrdc.C41_alignment_breaks",
    "Hrdc.C41_bytes_iff",
    "Hrdc.C41_empty_breaks",
    "Hrdc.C41_iff",
    "Hrdc.C41_named_partial",
    "Hrdc.C41_optimized_breaks",
    "Hrdc.C41_optimized_buffered_breaks",
    "Hrdc.C41_optimized_bytes_partial",
    "Hrdc.C41_optimized_pages_bytes_partial",
    "Hrdc.C41_optimized_pages_partial",
    "Hrdc.C41_optimized_partial",
    "Hrdc.C41_roundtrip_partial",
    "Hrdc.C41_single_breaks",
    "Hrdc.C41_unit_breaks",
    "Hrdc.C41_unlisted_breaks"
   ],
   "note": "C41_named_partial: with named arrays that have a usage. C41_optimized_partial, C41_optimized_bytes_partial: the same after the optimizer, on the items and on the bytes the compiler writes by default. C41_iff (items), C41_bytes_iff (bytes, optimized or not, no condition): exactly which compiled descriptors are decompiled to a tree of the same meaning. Missing: the other trees, for which the property is false of the code, C41_*_breaks. C41_optimized_pages_partial, C41_optimized_pages_bytes_partial: all conditions are on the tree."
  },
  {
   "property": "C42",
   "status": "partial",
   "theorems": [
    "Hrdc.C42_alignment_breaks",
    "Hrdc.C42_compiles",
    "Hrdc.C42_decompile_partial",
    "Hrdc.C42_document_exact",
    "Hrdc.C42_document_iff",
    "Hrdc.C42_document_items_iff",
    "Hrdc.C42_exact",
    "Hrdc.C42_iff",
    "Hrdc.C42_items_iff",
    "Hrdc.C42_no_usage_breaks",
    "Hrdc.C42_optimized_bounds_breaks",
    "Hrdc.C42_optimized_keyboard_breaks",
    "Hrdc.C42_optimized_pages_breaks",
    "Hrdc.C42_optimized_partial",
    "Hrdc.C42_rebuild_partial",
    "Hrdc.C42_report_breaks",
    "Hrdc.C42_wide_padding_breaks",
    "Hrdc.C42_wide_page_breaks",
    "Hrdc.C42_wide_report_breaks"
   ],
   "note": "C42_compiles: which decompiled trees compile. C42_exact, C42_document_exact: for every stream, whether the decompiled tree compiles and what to. C42_iff, C42_document_iff: exactly which streams keep their meaning. C42_items_iff, C42_document_items_iff: the items of the rebuilt descriptor, for every stream. Missing: the other streams, for which the property is false of the code, C42_*_breaks. C42_optimized_partial: with the default optimization, conditions on the meaning of the document only; each is needed in some case (C42_optimized_keyboard_breaks, C42_optimized_bounds_breaks, C42_optimized_pages_breaks)."
  },
  {
   "property": "C43",
   "status": "partial",
   "theorems": [
    "Hrdc.C43_collections_partial",
    "Hrdc.C43_empty_lost",
    "Hrdc.C43_iff",
    "Hrdc.C43_kinds_partial",
    "Hrdc.C43_named_lost"
   ],
   "note": "C43_iff: the streams of which every collection is in the tree. C43_kinds_partial: kinds and nesting, every calm stream without empty collections (Push/Pop, several ranges, arrays, strings as they like). C43_collections_partial: the usages too, for Extractable streams. False of the code: empty collections (C43_empty_lost), NamedArray collections around a Variable item (C43_named_lost), streams that are refused (C38_*_breaks)."
  },
  {
   "property": "C44",
   "status": "partial",
   "theorems": [
    "Hrdc.C44_authored_exact",
    "Hrdc.C44_bounds_breaks",
    "Hrdc.C44_command_exact",
    "Hrdc.C44_command_partial",
    "Hrdc.C44_decompiled_partial",
    "Hrdc.C44_empty_breaks",
    "Hrdc.C44_exact",
    "Hrdc.C44_flags_breaks",
    "Hrdc.C44_intkind_breaks",
    "Hrdc.C44_kind_breaks",
    "Hrdc.C44_name_breaks",
    "Hrdc.C44_optimized_partial",
    "Hrdc.C44_pipeline_partial",
    "Hrdc.C44_script_partial",
    "Hrdc.C44_there_and_back_partial",
    "Hrdc.C44_unit_breaks",
    "Hrdc.C44_unreadable",
    "Hrdc.C44_usage_breaks"
   ],
   "note": "Decompiled descriptors: C44_exact and C44_command_exact say exactly which scripts run and which rebuild the descriptor. Descriptors written by hand, from integers and the constants of the library each in its place and without empty named arrays: C44_authored_exact says exactly the same. Any descriptor: C44_script_partial; missing: constants in the wrong place (a unit as flags, say) and named constants made by the program. The C44_*_breaks theorems refute the property, one descriptor of each sort. C44_optimized_partial: there and back with the default optimization."
  },
  {
   "property": "C45",
   "status": "partial",
   "theorems": [
    "Hrdc.C45_array_partial",
    "Hrdc.C45_iff",
    "Hrdc.C45_usage_breaks"
   ],
   "note": "Missing, false of the code: named arrays with a usage get the Variable flag (C45_usage_breaks). C45_iff: exactly the values without a usage."
  },
  {
   "property": "C46",
   "status": "proved",
   "theorems": [
    "Hrdc.C46_inpage",
    "Hrdc.C46_split"
   ],
   "note": ""
  },
  {
   "property": "C47",
   "status": "proved",
   "theorems": [
    "Hrdc.C47_lookup_registered",
    "Hrdc.C47_lookup_value"
   ],
   "note": ""
  },
  {
   "property": "C48",
   "status": "partial",
   "theorems": [
    "Hrdc.C48_from_array",
    "Hrdc.C48_iff",
    "Hrdc.C48_negative_index_breaks",
    "Hrdc.C48_range_inverted",
    "Hrdc.C48_range_list_partial"
   ],
   "note": "from_array: every array. Missing, false of the code: ranges with max < min - 1 (C48_range_inverted), indices outside 0..len-1 (C48_negative_index_breaks). C48_iff: exactly these."
  },
  {
   "property": "C49",
   "status": "proved",
   "theorems": [
    "Hrdc.C49_nibble_range",
    "Hrdc.C49_unit_constants",
    "Hrdc.C49_unit_packing"
   ],
   "note": ""
  },
  {
   "property": "C50",
   "status": "partial",
   "theorems": [
    "Hrdc.C50_unit_partial",
    "Hrdc.C50_velocity"
   ],
   "note": "Missing, false of the code: Unit.Velocity does not exist (C50_velocity)."
  },
  {
   "property": "C51",
   "status": "partial",
   "theorems": [
    "Hrdc.C51_button_overflow",
    "Hrdc.C51_distinct",
    "Hrdc.C51_lookup",
    "Hrdc.C51_misread",
    "Hrdc.C51_names_partial",
    "Hrdc.C51_pages_partial",
    "Hrdc.C51_registered",
    "Hrdc.C51_wrong_page"
   ],
   "note": "Missing, false of the code: four names that are no attributes (C51_misread), one constant on another page (C51_wrong_page)."
  },
  {
   "property": "C52",
   "status": "proved",
   "theorems": [
    "Hrdc.C52_item_eq"
   ],
   "note": ""
  },
  {
   "property": "C53",
   "status": "partial",
   "theorems": [
    "Hrdc.C53_asymm_iff",
    "Hrdc.C53_chain",
    "Hrdc.C53_chain_case",
    "Hrdc.C53_iff",
    "Hrdc.C53_lt_iff",
    "Hrdc.C53_lt_not_asymm",
    "Hrdc.C53_lt_not_trans",
    "Hrdc.C53_lt_partial"
   ],
   "note": "Missing, false of the code: < is neither asymmetric nor transitive (C53_lt_not_asymm, C53_lt_not_trans). C53_iff: < is a strict order exactly on sets of items any two of which compare the same way, or equal, in kind, tag and value."
  },
  {
   "property": "C54",
   "status": "partial",
   "theorems": [
    "Hrdc.C54_container_partial",
    "Hrdc.C54_pop_returns_none"
   ],
   "note": "Missing, false of the code: pop returns None (C54_pop_returns_none)."
  },
  {
   "property": "C55",
   "status": "partial",
   "theorems": [
    "Hrdc.C55_close_warns_partial",
    "Hrdc.C55_code_indent",
    "Hrdc.C55_iff",
    "Hrdc.C55_misnested_not_reported"
   ],
   "note": "Missing, false of the code: wrong nesting with equal numbers is not reported (C55_misnested_not_reported). C55_iff: exactly which streams are judged right."
  },
  {
   "property": "C56",
   "status": "proved",
   "theorems": [
    "Hrdc.C56_listing",
    "Hrdc.C56_titles_distinct",
    "Hrdc.C56_unique"
   ],
   "note": ""
  },
  {
   "property": "C57",
   "status": "partial",
   "theorems": [
    "Hrdc.C57_compiled",
    "Hrdc.C57_explicit_page_repeats",
    "Hrdc.C57_no_redundant_global",
    "Hrdc.C57_no_redundant_page_partial",
    "Hrdc.C57_page_repeats"
   ],
   "note": "Globals other than UsagePage: every stream. UsagePage: every compiled tree and every stream without UsagePage items. C57_page_repeats: in any stream the optimizer repeats the page at most as often as the stream has UsagePage items of its own, so none of those it adds is redundant. Missing, false of the code: UsagePage items of the stream that set again what the optimizer has already written (C57_explicit_page_repeats)."
  },
  {
   "property": "C58",
   "status": "partial",
   "theorems": [
    "Hrdc.C58_bound",
    "Hrdc.C58_command_bound",
    "Hrdc.C58_command_partial",
    "Hrdc.C58_compiled_bound",
    "Hrdc.C58_compiled_partial",
    "Hrdc.C58_never_longer_partial",
    "Hrdc.C58_shared_count_longer",
    "Hrdc.C58_short_usage_longer",
    "Hrdc.C58_wide_usage_longer"
   ],
   "note": "C58_bound, C58_compiled_bound, C58_command_bound: without conditions, how much longer it can get at most. Missing, false of the code: C58_wide_usage_longer, C58_short_usage_longer, C58_shared_count_longer."
  },
  {
   "property": "C59",
   "status": "proved",
   "theorems": [
    "Hrdc.C59_command",
    "Hrdc.C59_compiles_iff"
   ],
   "note": ""
  },
  {
   "property": "C60",
   "status": "proved",
   "theorems": [
    "Hrdc.C60_and",
    "Hrdc.C60_arithmetic",
    "Hrdc.C60_flags",
    "Hrdc.C60_flags_order",
    "Hrdc.C60_int_left_breaks",
    "Hrdc.C60_invert",
    "Hrdc.C60_or"
   ],
   "note": ""
  },
  {
   "property": "C61",
   "status": "proved",
   "theorems": [
    "Hrdc.C61_expected_exact",
    "Hrdc.C61_first_exception",
    "Hrdc.C61_own_output"
   ],
   "note": ""
  },
  {
   "property": "C62",
   "status": "proved",
   "theorems": [
    "Hrdc.C62_compile_prefix",
    "Hrdc.C62_compile_success",
    "Hrdc.C62_convert_front",
    "Hrdc.C62_convert_plain",
    "Hrdc.C62_convert_prefix",
    "Hrdc.C62_convert_success",
    "Hrdc.C62_readable"
   ],
   "note": ""
  },
  {
   "property": "C63",
   "status": "partial",
   "theorems": [
    "Hrdc.C63_binary_input_breaks",
    "Hrdc.C63_binary_output_breaks",
    "Hrdc.C63_channels_partial",
    "Hrdc.C63_names_partial"
   ],
   "note": "Names: exact. Channels: proved for hex and code everywhere and for binary on the standard streams (C63_channels_partial). Missing, false of the code: binary files, which are opened as text (C63_binary_output_breaks, C63_binary_input_breaks)."
  },
  {
   "property": "C64",
   "status": "proved",
   "theorems": [
    "Hrdc.C64_compile",
    "Hrdc.C64_convert",
    "Hrdc.C64_convert_bytes",
    "Hrdc.C64_optimizer",
    "Hrdc.C64_overflow_breaks",
    "Hrdc.C64_overflow_tree_breaks"
   ],
   "note": ""
  },
  {
   "property": "C65",
   "status": "proved",
   "theorems": [
    "Hrdc.C65_compile",
    "Hrdc.C65_convert",
    "Hrdc.C65_expected",
    "Hrdc.C65_optimizer"
   ],
   "note": ""
  },
  {
   "property": "C66",
   "status": "proved",
   "theorems": [
    "Hrdc.C66_written",
    "Hrdc.C66_written_iff"
   ],
   "note": ""
  },
  {
   "property": "C67",
   "status": "partial",
   "theorems": [
    "Hrdc.C67_decompiler_partial",
    "Hrdc.C67_dump",
    "Hrdc.C67_dump_raises_iff",
    "Hrdc.C67_exception_breaks",
    "Hrdc.C67_message_breaks",
    "Hrdc.C67_messages_partial",
    "Hrdc.C67_printed",
    "Hrdc.C67_quiet_partial",
    "Hrdc.C67_whole_partial"
   ],
   "note": "Proved of the file named for the output, for every input: nothing with an exception, or a whole script. On standard output, the default, the claim is false: a line is printed for arrays of non-consecutive usages (C67_message_breaks) and the decompiler's state with an exception (C67_exception_breaks). C67_quiet_partial and C67_messages_partial say when standard output is the script alone, the latter exactly. C67_printed says, for every input, what is printed: lines about arrays, then, only with an exception, a line naming the item that caused it, and no script."
  },
  {
   "property": "C68",
   "status": "partial",
   "theorems": [
    "Hrdc.C68_designator_uniq",
    "Hrdc.C68_main_merge_partial",
    "Hrdc.C68_open_stream_breaks",
    "Hrdc.C68_optimize_twice_breaks",
    "Hrdc.C68_passes_twice_breaks",
    "Hrdc.C68_physical_merge",
    "Hrdc.C68_range_merge",
    "Hrdc.C68_usage_page_iff",
    "Hrdc.C68_zero_count_breaks"
   ],
   "note": "Every stream: designators, physical bounds, the three range merges; global merging is C19_idempotent. Usage pages: exact condition. Main items: partial, false outside (C68_zero_count_breaks, C68_open_stream_breaks). Whole optimizer: false of the code (C68_optimize_twice_breaks, C68_passes_twice_breaks)."
  },
  {
   "property": "C69",
   "status": "proved",
   "theorems": [
    "Hrdc.C69_front",
    "Hrdc.C69_order",
    "Hrdc.C69_toplevel"
   ],
   "note": ""
  },
  {
   "property": "C70",
   "status": "partial",
   "theorems": [
    "Hrdc.C70_bytes_partial",
    "Hrdc.C70_kind_breaks",
    "Hrdc.C70_value",
    "Hrdc.C70_zero_breaks"
   ],
   "note": "Proved for every descriptor without negative kinds whose usages are given in both forms or in neither (C70_bytes_partial, C70_value for the constructor). False of the code, with witnesses: usage 0 as a number is taken for no usage (C70_zero_breaks); kind -1 as a number is the last known kind (C70_kind_breaks)."
  },
  {
   "property": "C71",
   "status": "proved",
   "theorems": [
    "Hrdc.C71_c_initializer",
    "Hrdc.C71_c_values",
    "Hrdc.C71_code",
    "Hrdc.C71_hex"
   ],
   "note": "C71_c_values reads the text with the first phases of a C compiler (trigraphs, joined lines, comments, preprocessing numbers, constants)."
  },
  {
   "property": "C72",
   "status": "partial",
   "theorems": [
    "Hrdc.C72_iff",
    "Hrdc.C72_named_partial",
    "Hrdc.C72_plain",
    "Hrdc.C72_second_breaks"
   ],
   "note": "C72_iff: the streams of which named arrays and nothing else are recognised. C72_named_partial: streams of NamedExtractable. False of the code for some others (C72_second_breaks: a second field in the collection of a named array)."
  },
  {
   "property": "C73",
   "status": "partial",
   "theorems": [
    "Hrdc.C73_array_breaks",
    "Hrdc.C73_commands_iff",
    "Hrdc.C73_commands_partial",
    "Hrdc.C73_commands_third",
    "Hrdc.C73_crowded_breaks",
    "Hrdc.C73_end_breaks",
    "Hrdc.C73_iff",
    "Hrdc.C73_lost_breaks",
    "Hrdc.C73_outcome",
    "Hrdc.C73_padding_breaks",
    "Hrdc.C73_rebuilt_partial",
    "Hrdc.C73_report_breaks",
    "Hrdc.C73_settles_partial",
    "Hrdc.C73_third",
    "Hrdc.C73_third_iff",
    "Hrdc.C73_third_items",
    "Hrdc.C73_third_items_iff",
    "Hrdc.C73_third_on",
    "Hrdc.C73_two_break",
    "Hrdc.C73_two_break_document"
   ],
   "note": "C73_iff, C73_commands_iff: exactly which documents settle (`rewritten` says item by item what a rebuild writes, for every stream). C73_third_items, C73_third, C73_third_on, C73_commands_third: every document, with no condition on it, is the same from the third rebuild on (or a rebuild fails); C73_two_break, C73_two_break_document: two rebuilds are not enough. C73_third_items_iff, C73_third_iff: after two rebuilds there is a third exactly when a collection is left; C73_outcome: so every document that can be rebuilt twice loses its collections and is refused, or stays the same from the third rebuild on; C73_lost_breaks, C73_crowded_breaks: documents that cannot be rebuilt a third or a second time. C73_rebuilt_partial (what the second tree is), C73_settles_partial (items), C73_commands_partial (the commands): decompiled trees that are Steady. Missing: other trees; false of the code for some (C73_report_breaks: report 0 after report 1; C73_array_breaks: NamedArray collection with a usage not listed for arrays; C73_end_breaks: a field outside collections before an empty collection; C73_padding_breaks: padding of no bits alone in a report)."
  },
  {
   "property": "C74",
   "status": "proved",
   "theorems": [
    "Hrdc.C74_alike",
    "Hrdc.C74_commands",
    "Hrdc.C74_same_items"
   ],
   "note": ""
  },
  {
   "property": "C75",
   "status": "proved",
   "theorems": [
    "Hrdc.C75_globals",
    "Hrdc.C75_indices",
    "Hrdc.C75_main"
   ],
   "note": ""
  },
  {
   "property": "C76",
   "status": "proved",
   "theorems": [
    "Hrdc.C76_bytes",
    "Hrdc.C76_fields",
    "Hrdc.C76_items",
    "Hrdc.C76_many",
    "Hrdc.C76_meaning",
    "Hrdc.C76_optimized_apart",
    "Hrdc.C76_shared_moves",
    "Hrdc.C76_unreported_moves"
   ],
   "note": ""
  },
  {
   "property": "C77",
   "status": "partial",
   "theorems": [
    "Hrdc.C77_arcade",
    "Hrdc.C77_arrays_partial",
    "Hrdc.C77_bound",
    "Hrdc.C77_counted",
    "Hrdc.C77_numbers_partial",
    "Hrdc.C77_off_kind",
    "Hrdc.C77_off_number"
   ],
   "note": "The tables of HID are in Spec/Hut, written from knowledge of the HID Usage Tables (no copy is available here). Missing, and false of the code: desktop.SystemDisplayRotationLockButton (page 0x10) and led.PlayerIndicator, led.Player1 to led.Player8 (0x4e to 0x56, HID: 0x60 to 0x68), C77_off_number; the events of sensors are declared named arrays where HID has selectors, and sensors.DataFieldGPSSelectionMode is not where HID has one, C77_off_kind. C77_arcade: the arcade module, which hrdc.usage does not import, has the numbers of HID on a vendor page."
  },
  {
   "property": "C78",
   "status": "partial",
   "theorems": [
    "Hrdc.C78_composable",
    "Hrdc.C78_composed",
    "Hrdc.C78_named_partial",
    "Hrdc.C78_no_system",
    "Hrdc.C78_second_unnamed"
   ],
   "note": "Compositions: all. Names: missing, and false of the code: Unit.Second, Unit.Ampere and Unit.Candela, which have no system (C78_no_system)."
  },
  {
   "property": "C79",
   "status": "partial",
   "theorems": [
    "Hrdc.C79_after_report_breaks",
    "Hrdc.C79_apart_partial",
    "Hrdc.C79_appended_partial",
    "Hrdc.C79_bytes_partial",
    "Hrdc.C79_case",
    "Hrdc.C79_entered_case",
    "Hrdc.C79_entered_partial",
    "Hrdc.C79_exact",
    "Hrdc.C79_frames_partial",
    "Hrdc.C79_optimized_partial",
    "Hrdc.C79_pages_break",
    "Hrdc.C79_physical_breaks",
    "Hrdc.C79_zero_report_breaks"
   ],
   "note": "Missing, and false of the code: elements after the end of a Report, which go into it (C79_after_report_breaks; C79_entered_partial has no such condition, counting them there), and Report(0) after another report (C79_zero_report_breaks); optimized, trees that are not OptTree (C79_physical_breaks) and values on several pages for hosts resolving pages at main items (C79_pages_break). C79_frames_partial: what is not a name is independent also for these, optimized or not. C79_exact: every descriptor that compiles, by the places the code gives elements (Spec/Placed.lean), with no condition on the end of reports or Report(0)."
  },
  {
   "property": "C80",
   "status": "partial",
   "theorems": [
    "Hrdc.C80_after_report_breaks",
    "Hrdc.C80_array_breaks",
    "Hrdc.C80_bytes_partial",
    "Hrdc.C80_case",
    "Hrdc.C80_count_breaks",
    "Hrdc.C80_entered_partial",
    "Hrdc.C80_exact",
    "Hrdc.C80_layout_partial",
    "Hrdc.C80_numbers_partial",
    "Hrdc.C80_read_partial"
   ],
   "note": "Missing, and false of the code: elements after the end of a Report (C80_after_report_breaks), values of several fields before larger alignments (C80_count_breaks), named arrays that have a usage (C80_array_breaks); optimized, as C79. C80_numbers_partial: the numbers alone, optimized too, with no condition on names, pages, arrays or physical bounds. C80_entered_partial: elements after the end of a Report too, counted in the report entered last. C80_exact: every descriptor that compiles, optimized or not: where a device has to put the numbers, and what the host is told. C80_layout_partial: a test on the tree, weaker than the other conditions, for devices that follow the tree."
  },
  {
   "property": "C81",
   "status": "partial",
   "theorems": [
    "Hrdc.C81_compile",
    "Hrdc.C81_compiled_partial",
    "Hrdc.C81_converter_partial",
    "Hrdc.C81_frames_partial",
    "Hrdc.C81_iff",
    "Hrdc.C81_numbers_partial",
    "Hrdc.C81_push_pop_breaks",
    "Hrdc.C81_trailing_breaks"
   ],
   "note": "C81_compile: every descriptor that compiles, with no condition. Missing, and false of the code: streams that are read and have Push/Pop (C81_push_pop_breaks) or data items after the last collection (C81_trailing_breaks). C81_iff says exactly which streams without Push/Pop keep their fields."
  },
  {
   "property": "C82",
   "status": "partial",
   "theorems": [
    "Hrdc.C82_alignment_breaks",
    "Hrdc.C82_buffered_breaks",
    "Hrdc.C82_document_partial",
    "Hrdc.C82_exact",
    "Hrdc.C82_iff",
    "Hrdc.C82_numbers_partial",
    "Hrdc.C82_pop_breaks",
    "Hrdc.C82_report_breaks",
    "Hrdc.C82_stream_partial",
    "Hrdc.C82_trailing_breaks"
   ],
   "note": "KeepsPlaces lists the conditions; without them false of the code: Pop (C82_pop_breaks), fields that are not aligned (C82_alignment_breaks), report 0 after another (C82_report_breaks), several buffered fields (C82_buffered_breaks), data items after the last collection (C82_trailing_breaks). No condition on usages, ranges, arrays, strings, units, physical bounds or nesting. C82_exact: where the numbers are after recompiling any document with all collections closed; C82_iff: when this is where they were."
  },
  {
   "property": "C83",
   "status": "proved",
   "theorems": [
    "Hrdc.C83_cat",
    "Hrdc.C83_code",
    "Hrdc.C83_convert",
    "Hrdc.C83_convert_code",
    "Hrdc.C83_names",
    "Hrdc.C83_read"
   ],
   "note": ""
  },
  {
   "property": "C84",
   "status": "proved",
   "theorems": [
    "Hrdc.C84_alone",
    "Hrdc.C84_append",
    "Hrdc.C84_bytes",
    "Hrdc.C84_edit",
    "Hrdc.C84_end_counts",
    "Hrdc.C84_frames",
    "Hrdc.C84_report_counts",
    "Hrdc.C84_same_shape"
   ],
   "note": ""
  },
  {
   "property": "C85",
   "status": "proved",
   "theorems": [
    "Hrdc.C85_described",
    "Hrdc.C85_documents",
    "Hrdc.C85_errors",
    "Hrdc.C85_global_breaks",
    "Hrdc.C85_many",
    "Hrdc.C85_many_described",
    "Hrdc.C85_merged",
    "Hrdc.C85_open_breaks",
    "Hrdc.C85_script",
    "Hrdc.C85_trees"
   ],
   "note": "C85_trees, C85_errors (items), C85_described (what the tree describes), C85_documents (any format, names aside), C85_script (the script), C85_merged (descriptors), C85_many, C85_many_described (any number of streams). Conditions (Spec/Seam.lean) are needed: C85_global_breaks, C85_open_breaks."
  },
  {
   "property": "C86",
   "status": "proved",
   "theorems": [
    "Hrdc.C86_chain",
    "Hrdc.C86_code",
    "Hrdc.C86_later",
    "Hrdc.C86_newline_breaks",
    "Hrdc.C86_passes"
   ],
   "note": "C86_later (binary, hexadecimal), C86_code, C86_chain (formats in between), C86_passes (library). Proofs/Wire.lean: the passes look at class, value and the truth of locals only. A name with a line break in code: C86_newline_breaks."
  },
  {
   "property": "C87",
   "status": "proved",
   "theorems": [
    "Hrdc.C87_document",
    "Hrdc.C87_growth",
    "Hrdc.C87_items",
    "Hrdc.C87_linear",
    "Hrdc.C87_script",
    "Hrdc.C87_trailing"
   ],
   "note": ""
  },
  {
   "property": "C88",
   "status": "proved",
   "theorems": [
    "Hrdc.C88_bytes",
    "Hrdc.C88_items",
    "Hrdc.C88_optimized",
    "Hrdc.C88_sharp"
   ],
   "note": ""
  }
 ]
}