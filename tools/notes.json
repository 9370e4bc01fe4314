{
 "C14": {
  "note": "C14_exact, C14_same: what is read from every text, with `//` as a comment inside block comments too; C14_iff: the texts read as the claim says. Missing, false of the code: `//` inside a block comment (C14_slashes_in_block_lose_bytes)."
 },
 "C18": {
  "note": "C18_states_iff: on every stream, exactly when the state after every prefix is kept; C18_repeats_partial: Push/Pop allowed when repeated items repeat the value in force. Missing, false of the code: other streams with Push/Pop (C18_push_pop_breaks)."
 },
 "C20": {
  "note": "Missing: arrays, strings on some of the merged items, Push/Pop, data items at the very end; each is false of the code in a case (the four _break(s) theorems), not in all. C20_exact gives what any stream without Push/Pop and with closed ranges becomes; C20_iff says exactly when its meaning is kept."
 },
 "C21": {
  "note": "Missing, false of the code: physical bounds that come back to the logical ones (C21_return_to_logical_breaks), bounds reset before a collection (C21_reset_before_collection_breaks), Push/Pop (C21_push_pop_breaks). C21_exact_all gives the bounds every main item ends up with in any stream, Push and Pop included; C21_iff_all says exactly when its meaning is kept (C21_exact, C21_iff: a simpler account without Push and Pop)."
 },
 "C22": {
  "note": "Strings and designators: all streams. Usages: C22_usage_exact and C22_usage_iff give the effect, and when the meaning is kept, on all streams; C22_usage_short_partial: 16-bit usages. Missing, false of the code: 16-bit usages with page changes (C22_usage_page_change_breaks), ranges crossing a page (C22_usage_crossing_breaks)."
 },
 "C23": {
  "note": "C23_exact_all and C23_iff_all give the effect, and when the meaning is kept, on all streams, Push and Pop included (C23_exact, C23_iff: a simpler account without Push and Pop). Missing, false of the code: 16-bit usages on a page (C23_short_usage_breaks), Push/Pop (C23_push_pop_breaks) and, for hosts resolving pages at the main item, two pages in one item (C23_two_pages_break)."
 },
 "C24": {
  "note": "Missing, false of the code: a designator 0 split from others by a global (C24_split_designators_break). C24_exact gives the exact effect on every stream and C24_iff the exact condition, for every stream."
 },
 "C25": {
  "note": "Missing: what C18 and C20-C24 leave out, with counterexamples there. C25_iff and C25_converter_iff (on bytes) say exactly when the meaning is kept, for streams without Push/Pop, with complete usages, closed ranges and kept designators. C25_unpaged_iff, C25_short_iff and C25_short_converter_iff do so for 16-bit usages on any pages: the UsagePage items stop to count. C25_usual_breaks and C25_usual_converter_breaks: every descriptor that begins with a page, a 16-bit usage and a collection, whatever follows, is changed, for both sorts of hosts."
 },
 "C27": {
  "note": "C27_exact: what every report of a stream without Push/Pop has, before and after, whatever passes are selected: only fields still to be written at the very end may change, by the report count in force there. C27_iff: exactly when all sizes are kept. C27_report_sizes_kept_partial: streams whose last main item is not a data item. Missing, false of the code: Push/Pop and some data items at the very end (the two _breaks theorems). C27_compile: all sizes are kept for every descriptor that compiles, with no condition."
 },
 "C29": {
  "note": "C29_compile_exact_partial says what every tree that compiles means, with no condition, but by a description that follows the streamer's own counting (Proofs/Exact). Against the independent meaning of the tree, missing and false of the code: values after a Report (C35_values_after_report), counts (C32_counts_break), Report(0) after another (C32_zero_report_breaks), negative kinds (C29_negative_kind_breaks), named arrays with a usage (C45_usage_breaks)."
 },
 "C30": {
  "note": "Missing: hosts resolving pages at main items, merged arrays, strings, physical bounds, trailing items; each is false of the code in a case (the _break(s) theorems), not in all. C30_iff says exactly when optimizing keeps the meaning, for every descriptor that compiles and hosts completing usages where they are declared. C30_optimized_pages_partial: hosts of both sorts, with a condition on the pages of the tree (C30_pages_break shows it cannot be dropped)."
 },
 "C31": {
  "note": "As C29 and C30, on bytes (C31_report_breaks). C31_optimized_iff: exactly when the optimized bytes keep the meaning, under the conditions of C30_tree_iff. C31_optimized_pages_partial: hosts of both sorts read the optimized bytes."
 },
 "C32": {
  "note": "Missing, false of the code: values with a count whose further fields break the alignment (C32_counts_break), Report(0) after another report (C32_zero_report_breaks). C32_iff: exactly which elements are aligned, in all descriptors without Report(0) after another report. C32_bytes_iff: the same in the bytes written, with the default optimization too."
 },
 "C33": {
  "note": "C33_padding_bound has no condition on the tree. Missing, false of the code: padding where a count made the streamer lose track (C33_counts_break), Report(0) after another report (C33_zero_report_breaks). C33_iff: exactly where the padding is the least possible, likewise. C32_bytes_iff, C33_bytes_bound: the same in the bytes written, with the default optimization too."
 },
 "C35": {
  "note": "C35_report_exact_partial and C35_iff have no condition on the tree: elements are in the report entered last, which tells exactly when it is theirs. Missing, false of the code: values after the end of a Report (C35_values_after_report). C35_bytes_iff: the same in the bytes written, with the default optimization too."
 },
 "C38": {
  "note": "C38_exact: for every stream whether it is decompiled, and the error otherwise, by a reading of streams that does not refer to the decompiler (Spec/Rebuild.lean); C39_exact and C39_document_exact give the tree, so the nesting that is rebuilt. C38_nesting_partial, C38_rebuilt_partial: conditions that make this what the claim says. The claim is false of the code where data items are taken for named arrays (C38_top_breaks, C38_beside_breaks, C38_nested_breaks, C38_no_usage_breaks, C38_no_value_breaks)."
 },
 "C39": {
  "note": "C39_exact: for every stream, and C39_document_exact for every document in any format, what the decompiled tree describes or which error is raised; C39_iff: the streams with a tree of the same meaning. C39_values_partial, C39_hosts_partial, C39_named_partial: conditions on the items that are enough. The claim is false of the code for some streams of each sort left out (C39_*_break(s))."
 },
 "C41": {
  "note": "C41_named_partial: with named arrays that have a usage. C41_optimized_partial, C41_optimized_bytes_partial: the same after the optimizer, on the items and on the bytes the compiler writes by default. C41_iff (items), C41_bytes_iff (bytes, optimized or not, no condition): exactly which compiled descriptors are decompiled to a tree of the same meaning. Missing: the other trees, for which the property is false of the code, C41_*_breaks. C41_optimized_pages_partial, C41_optimized_pages_bytes_partial: all conditions are on the tree."
 },
 "C42": {
  "note": "C42_compiles: which decompiled trees compile. C42_exact, C42_document_exact: for every stream, whether the decompiled tree compiles and what to. C42_iff, C42_document_iff: exactly which streams keep their meaning. C42_items_iff, C42_document_items_iff: the items of the rebuilt descriptor, for every stream. Missing: the other streams, for which the property is false of the code, C42_*_breaks. C42_optimized_partial: with the default optimization, conditions on the meaning of the document only; each is needed in some case (C42_optimized_keyboard_breaks, C42_optimized_bounds_breaks, C42_optimized_pages_breaks)."
 },
 "C43": {
  "note": "C43_iff: the streams of which every collection is in the tree. C43_kinds_partial: kinds and nesting, every calm stream without empty collections (Push/Pop, several ranges, arrays, strings as they like). C43_collections_partial: the usages too, for Extractable streams. False of the code: empty collections (C43_empty_lost), NamedArray collections around a Variable item (C43_named_lost), streams that are refused (C38_*_breaks)."
 },
 "C44": {
  "note": "Decompiled descriptors: C44_exact and C44_command_exact say exactly which scripts run and which rebuild the descriptor. Descriptors written by hand, from integers and the constants of the library each in its place and without empty named arrays: C44_authored_exact says exactly the same. Any descriptor: C44_script_partial; missing: constants in the wrong place (a unit as flags, say) and named constants made by the program. The C44_*_breaks theorems refute the property, one descriptor of each sort. C44_optimized_partial: there and back with the default optimization."
 },
 "C45": {
  "note": "Missing, false of the code: named arrays with a usage get the Variable flag (C45_usage_breaks). C45_iff: exactly the values without a usage."
 },
 "C50": {
  "note": "Missing, false of the code: Unit.Velocity does not exist (C50_velocity)."
 },
 "C51": {
  "note": "Missing, false of the code: four names that are no attributes (C51_misread), one constant on another page (C51_wrong_page)."
 },
 "C53": {
  "note": "Missing, false of the code: < is neither asymmetric nor transitive (C53_lt_not_asymm, C53_lt_not_trans). C53_iff: < is a strict order exactly on sets of items any two of which compare the same way, or equal, in kind, tag and value."
 },
 "C54": {
  "note": "Missing, false of the code: pop returns None (C54_pop_returns_none)."
 },
 "C55": {
  "note": "Missing, false of the code: wrong nesting with equal numbers is not reported (C55_misnested_not_reported). C55_iff: exactly which streams are judged right."
 },
 "C57": {
  "note": "Globals other than UsagePage: every stream. UsagePage: every compiled tree and every stream without UsagePage items. C57_page_repeats: in any stream the optimizer repeats the page at most as often as the stream has UsagePage items of its own, so none of those it adds is redundant. Missing, false of the code: UsagePage items of the stream that set again what the optimizer has already written (C57_explicit_page_repeats)."
 },
 "C06": {
  "note": "C06_parse_spec_partial says exactly when parsing succeeds and with what. Missing, false of the code: with size code 0, bytes after the header are accepted (C06_extra_bytes_accepted). C06_iff: exactly where the claim holds."
 },
 "C13": {
  "note": "Missing, false of the code: names with a newline (C13_newline_breaks)."
 },
 "C36": {
  "note": "C36_fields_partial and C36_raises_partial say exactly what is kept and when the constructor raises. Against the property, false of the code: the physical maximum of a named array defaults to None (C36_array_physical_breaks); a usage range of negative length raises too."
 },
 "C48": {
  "note": "from_array: every array. Missing, false of the code: ranges with max < min - 1 (C48_range_inverted), indices outside 0..len-1 (C48_negative_index_breaks). C48_iff: exactly these."
 },
 "C58": {
  "note": "C58_bound, C58_compiled_bound, C58_command_bound: without conditions, how much longer it can get at most. Missing, false of the code: C58_wide_usage_longer, C58_short_usage_longer, C58_shared_count_longer."
 },
 "C63": {
  "note": "Names: exact. Channels: proved for hex and code everywhere and for binary on the standard streams (C63_channels_partial). Missing, false of the code: binary files, which are opened as text (C63_binary_output_breaks, C63_binary_input_breaks)."
 },
 "C68": {
  "note": "Every stream: designators, physical bounds, the three range merges; global merging is C19_idempotent. Usage pages: exact condition. Main items: partial, false outside (C68_zero_count_breaks, C68_open_stream_breaks). Whole optimizer: false of the code (C68_optimize_twice_breaks, C68_passes_twice_breaks)."
 },
 "C67": {
  "note": "Proved of the file named for the output, for every input: nothing with an exception, or a whole script. On standard output, the default, the claim is false: a line is printed for arrays of non-consecutive usages (C67_message_breaks) and the decompiler's state with an exception (C67_exception_breaks). C67_quiet_partial and C67_messages_partial say when standard output is the script alone, the latter exactly. C67_printed says, for every input, what is printed: lines about arrays, then, only with an exception, a line naming the item that caused it, and no script."
 },
 "C70": {
  "note": "Proved for every descriptor without negative kinds whose usages are given in both forms or in neither (C70_bytes_partial, C70_value for the constructor). False of the code, with witnesses: usage 0 as a number is taken for no usage (C70_zero_breaks); kind -1 as a number is the last known kind (C70_kind_breaks)."
 },
 "C72": {
  "note": "C72_iff: the streams of which named arrays and nothing else are recognised. C72_named_partial: streams of NamedExtractable. False of the code for some others (C72_second_breaks: a second field in the collection of a named array)."
 },
 "C73": {
  "note": "C73_iff, C73_commands_iff: exactly which documents settle (`rewritten` says item by item what a rebuild writes, for every stream). C73_third_items, C73_third, C73_third_on, C73_commands_third: every document, with no condition on it, is the same from the third rebuild on (or a rebuild fails); C73_two_break, C73_two_break_document: two rebuilds are not enough. C73_third_items_iff, C73_third_iff: after two rebuilds there is a third exactly when a collection is left; C73_outcome: so every document that can be rebuilt twice loses its collections and is refused, or stays the same from the third rebuild on; C73_lost_breaks, C73_crowded_breaks: documents that cannot be rebuilt a third or a second time. C73_rebuilt_partial (what the second tree is), C73_settles_partial (items), C73_commands_partial (the commands): decompiled trees that are Steady. Missing: other trees; false of the code for some (C73_report_breaks: report 0 after report 1; C73_array_breaks: NamedArray collection with a usage not listed for arrays; C73_end_breaks: a field outside collections before an empty collection; C73_padding_breaks: padding of no bits alone in a report)."
 },
 "C77": {
  "note": "The tables of HID are in Spec/Hut, written from knowledge of the HID Usage Tables (no copy is available here). Missing, and false of the code: desktop.SystemDisplayRotationLockButton (page 0x10) and led.PlayerIndicator, led.Player1 to led.Player8 (0x4e to 0x56, HID: 0x60 to 0x68), C77_off_number; the events of sensors are declared named arrays where HID has selectors, and sensors.DataFieldGPSSelectionMode is not where HID has one, C77_off_kind. C77_arcade: the arcade module, which hrdc.usage does not import, has the numbers of HID on a vendor page."
 },
 "C78": {
  "note": "Compositions: all. Names: missing, and false of the code: Unit.Second, Unit.Ampere and Unit.Candela, which have no system (C78_no_system)."
 },
 "C79": {
  "note": "Missing, and false of the code: elements after the end of a Report, which go into it (C79_after_report_breaks; C79_entered_partial has no such condition, counting them there), and Report(0) after another report (C79_zero_report_breaks); optimized, trees that are not OptTree (C79_physical_breaks) and values on several pages for hosts resolving pages at main items (C79_pages_break). C79_frames_partial: what is not a name is independent also for these, optimized or not. C79_exact: every descriptor that compiles, by the places the code gives elements (Spec/Placed.lean), with no condition on the end of reports or Report(0)."
 },
 "C80": {
  "note": "Missing, and false of the code: elements after the end of a Report (C80_after_report_breaks), values of several fields before larger alignments (C80_count_breaks), named arrays that have a usage (C80_array_breaks); optimized, as C79. C80_numbers_partial: the numbers alone, optimized too, with no condition on names, pages, arrays or physical bounds. C80_entered_partial: elements after the end of a Report too, counted in the report entered last. C80_exact: every descriptor that compiles, optimized or not: where a device has to put the numbers, and what the host is told. C80_layout_partial: a test on the tree, weaker than the other conditions, for devices that follow the tree."
 },
 "C81": {
  "note": "C81_compile: every descriptor that compiles, with no condition. Missing, and false of the code: streams that are read and have Push/Pop (C81_push_pop_breaks) or data items after the last collection (C81_trailing_breaks). C81_iff says exactly which streams without Push/Pop keep their fields."
 },
 "C82": {
  "note": "KeepsPlaces lists the conditions; without them false of the code: Pop (C82_pop_breaks), fields that are not aligned (C82_alignment_breaks), report 0 after another (C82_report_breaks), several buffered fields (C82_buffered_breaks), data items after the last collection (C82_trailing_breaks). No condition on usages, ranges, arrays, strings, units, physical bounds or nesting. C82_exact: where the numbers are after recompiling any document with all collections closed; C82_iff: when this is where they were."
 },
 "C71": {
  "note": "C71_c_values reads the text with the first phases of a C compiler (trigraphs, joined lines, comments, preprocessing numbers, constants)."
 },
 "C85": {
  "note": "C85_trees, C85_errors (items), C85_described (what the tree describes), C85_documents (any format, names aside), C85_script (the script), C85_merged (descriptors), C85_many, C85_many_described (any number of streams). Conditions (Spec/Seam.lean) are needed: C85_global_breaks, C85_open_breaks."
 },
 "C86": {
  "note": "C86_later (binary, hexadecimal), C86_code, C86_chain (formats in between), C86_passes (library). Proofs/Wire.lean: the passes look at class, value and the truth of locals only. A name with a line break in code: C86_newline_breaks."
 }
}