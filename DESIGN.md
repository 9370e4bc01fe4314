# Formal model of nipo/hrdc in Lean 4

`properties.jsonl` lists the properties, `MANIFEST.json` the theorems and the status of each.  The table
below is written by `tools/design.py` from these and from `tools/notes.json`.

## Layout

- `lean/Verif/Model/*`: the code, function by function; every definition cites the lines of `/repo`.
- `lean/Verif/Spec/*`: independent specifications: wire format, meaning of item streams, meaning of
  descriptor trees, C and hex texts, Python scripts, names shown, legal trees, nesting.
- `lean/Verif/Proofs/*`: lemmas and invariants.
- `lean/Verif/Props/*`: the theorems `Cnn_...`, each with an example meeting its hypotheses.
- `lean/Verif/Check/RepoTests.lean`: the tests of `/repo/tests` evaluated on the model.  These are checks
  of the model on samples, not proofs.
- `lean/Verif/Check/Docs.lean`: the listings of `README.rst` and `doc/*.rst` (converted, compiled with and without
  `-N`, decompiled) reproduced character for character by the model, save the page names of the converter
  listing, which the code takes from `hrdc/usage/usage.py:25-43` (the documentation prints `desktop` and `button`).
- `lean/Verif/Check/Examples.lean`: the descriptors of `/repo/examples` and `/repo/tests` meet the conditions of
  the theorems on compiling, optimizing and decompiling.
- `seeded/LOG.jsonl`: wrong programs tried against the theorems; `tools/mutate.py` runs them. `claim` are the
  claims the edit was expected to break when it was tried, `missed` those of them with no theorem that failed, `note` why.
  An edit tried more than once has one line, with the last result; `note` tells when an earlier one missed a claim.  Names of
  theorems are the present ones, save one that is gone (C20_main_merge_meaning_long_partial).  Versions of this file up to c004067 had no `missed`: in 18 lines they replaced or left out
  claims that were missed (two of them with a remark), and they left out two attempts in which no theorem failed.

## Names and status

A theorem ending in `_partial` proves less than its property; its comment says what is missing.  Theorems
with `break`, `lost`, `longer` or `not` in the name are counterexamples, or state a defect for all inputs.
A property is `proved` only when its statement holds of the model as it stands in `properties.jsonl`.  Most
partial properties are partial because the rest is false of the code.

Some properties have a theorem that says exactly what the code does (`C29_compile_exact_partial`,
`C35_report_exact_partial`, `C06_parse_spec_partial`, `C36_fields_partial`).  They hold without condition,
but `exact` in C29, C30, C32, C33, C35 and C37 is defined in `Proofs/Exact.lean`, not in `Spec`: it follows
the streamer's own counting of bits and reports, so it is closer to the code than the other specifications.
`C29_compile_meaning_partial` compares with the independent `Spec.treeMeaning`.

## Meaning of item streams

`Spec.meaning` reads a stream as a HID host does and gives a list of events: collections entered (kind,
usage, string, designator) and left, one control per field of a data item (direction, flags, report,
size, logical range, physical range in effect, unit, exponent, choices), one event per constant bit.
Locals are dropped after each main item; the last usage, string or designator is repeated when there
are fewer than fields.  The page of a 16-bit usage is the one in force at the usage item (`atUsage`) or at
the main item (`atMain`); hosts of both sorts exist and theorems say for which they hold.  Delimiter items
are given no meaning.

## Properties

| id | property | status | modelled in | proof | what is missing |
|---|---|---|---|---|---|
| C01 | Item encode/decode round trip | proved | Model/Item | cases on the class, integer arithmetic | - |
| C02 | Wire format is the HID short-item format | proved | Model/Item | cases on the class, integer arithmetic | - |
| C03 | Shortest payload | proved | Model/Item | cases on the class, integer arithmetic | - |
| C04 | Encoding fails exactly out of range | proved | Model/Item | cases on the class, integer arithmetic | - |
| C05 | Item construction accepts exactly the legal values | proved | Model/Item | cases on the class, integer arithmetic | - |
| C06 | Parsing one item never misreads | partial | Model/Item | cases on the class, integer arithmetic | C06_parse_spec_partial says exactly when parsing succeeds and with what. Missing, false of the code: with size code 0, bytes after the header are accepted (C06_extra_bytes_accepted). C06_iff: exactly where the claim holds. |
| C07 | Stream round trip | proved | Model/Parser, Formatter | induction on items or bytes | - |
| C08 | Framing partitions the blob | proved | Model/Parser, Formatter | induction on items or bytes | - |
| C09 | Truncation is detected | proved | Model/Parser, Formatter | induction on items or bytes | - |
| C10 | Conversion is idempotent and value preserving | proved | Model/Parser, Formatter | induction on items or bytes | - |
| C11 | Hex format round trip | proved | Model/Formatter, Parser | induction on the text | - |
| C12 | C code format round trip | proved | Model/Formatter, Parser | induction on the text | - |
| C13 | All three formats carry the same stream | partial | Model/Formatter, Parser | induction on the text | Missing, false of the code: names with a newline (C13_newline_breaks). |
| C14 | Code reader ignores comments and layout | partial | Model/Formatter, Parser | induction on the text | C14_exact, C14_same: what is read from every text, with `//` as a comment inside block comments too; C14_iff: the texts read as the claim says. Missing, false of the code: `//` inside a block comment (C14_slashes_in_block_lose_bytes). |
| C15 | Hex reader takes exactly the two-digit hex words | proved | Model/Formatter, Parser | induction on the text | - |
| C16 | Naming usages never changes values | proved | Model/Parser, Formatter | induction on the stream | - |
| C17 | Comparer accepts exactly equality | proved | Model/Parser, Formatter | induction on the stream | - |
| C18 | Global merging preserves meaning | partial | Model/Optimizer | simulation of two hosts along the stream, composition of passes | C18_states_iff: on every stream, exactly when the state after every prefix is kept; C18_repeats_partial: Push/Pop allowed when repeated items repeat the value in force. Missing, false of the code: other streams with Push/Pop (C18_push_pop_breaks). |
| C19 | Global merging removes every redundancy | proved | Model/Optimizer | simulation of two hosts along the stream, composition of passes | - |
| C20 | Main merging preserves meaning | partial | Model/Optimizer | simulation of two hosts along the stream, composition of passes | Missing: arrays, strings on some of the merged items, Push/Pop, data items at the very end; each is false of the code in a case (the four _break(s) theorems), not in all. C20_exact gives what any stream without Push/Pop and with closed ranges becomes; C20_iff says exactly when its meaning is kept. |
| C21 | Physical merging preserves meaning | partial | Model/Optimizer | simulation of two hosts along the stream, composition of passes | Missing, false of the code: physical bounds that come back to the logical ones (C21_return_to_logical_breaks), bounds reset before a collection (C21_reset_before_collection_breaks), Push/Pop (C21_push_pop_breaks). C21_exact_all gives the bounds every main item ends up with in any stream, Push and Pop included; C21_iff_all says exactly when its meaning is kept (C21_exact, C21_iff: a simpler account without Push and Pop). |
| C22 | Range merging preserves meaning | partial | Model/Optimizer | simulation of two hosts along the stream, composition of passes | Strings and designators: all streams. Usages: C22_usage_exact and C22_usage_iff give the effect, and when the meaning is kept, on all streams; C22_usage_short_partial: 16-bit usages. Missing, false of the code: 16-bit usages with page changes (C22_usage_page_change_breaks), ranges crossing a page (C22_usage_crossing_breaks). |
| C23 | Usage page splitting preserves usages | partial | Model/Optimizer | simulation of two hosts along the stream, composition of passes | C23_exact_all and C23_iff_all give the effect, and when the meaning is kept, on all streams, Push and Pop included (C23_exact, C23_iff: a simpler account without Push and Pop). Missing, false of the code: 16-bit usages on a page (C23_short_usage_breaks), Push/Pop (C23_push_pop_breaks) and, for hosts resolving pages at the main item, two pages in one item (C23_two_pages_break). |
| C24 | Designator pass preserves meaning | partial | Model/Optimizer | simulation of two hosts along the stream, composition of passes | Missing, false of the code: a designator 0 split from others by a global (C24_split_designators_break). C24_exact gives the exact effect on every stream and C24_iff the exact condition, for every stream. |
| C25 | Optimized conversion rewrites with identical meaning | partial | Model/Optimizer | simulation of two hosts along the stream, composition of passes | Missing: what C18 and C20-C24 leave out, with counterexamples there. C25_iff and C25_converter_iff (on bytes) say exactly when the meaning is kept, for streams without Push/Pop, with complete usages, closed ranges and kept designators. C25_unpaged_iff, C25_short_iff and C25_short_converter_iff do so for 16-bit usages on any pages: the UsagePage items stop to count. C25_usual_breaks and C25_usual_converter_breaks: every descriptor that begins with a page, a 16-bit usage and a collection, whatever follows, is changed, for both sorts of hosts. |
| C26 | Optimizing keeps the collection structure | proved | Model/Optimizer | simulation of two hosts along the stream, composition of passes | - |
| C27 | Optimizing keeps report sizes | partial | Model/Optimizer | simulation of two hosts along the stream, composition of passes | C27_exact: what every report of a stream without Push/Pop has, before and after, whatever passes are selected: only fields still to be written at the very end may change, by the report count in force there. C27_iff: exactly when all sizes are kept. C27_report_sizes_kept_partial: streams whose last main item is not a data item. Missing, false of the code: Push/Pop and some data items at the very end (the two _breaks theorems). C27_compile: all sizes are kept for every descriptor that compiles, with no condition. |
| C28 | Pass selection and streaming composition | proved | Model/Optimizer | simulation of two hosts along the stream, composition of passes | - |
| C29 | Compiling a descriptor yields its meaning | partial | Model/Descriptor, Streamer | induction on the tree | C29_compile_exact_partial says what every tree that compiles means, with no condition, but by a description that follows the streamer's own counting (Proofs/Exact). Against the independent meaning of the tree, missing and false of the code: values after a Report (C35_values_after_report), counts (C32_counts_break), Report(0) after another (C32_zero_report_breaks), negative kinds (C29_negative_kind_breaks), named arrays with a usage (C45_usage_breaks). |
| C30 | Optimized compilation yields the same meaning | partial | Model/Descriptor, Streamer | induction on the tree | Missing: hosts resolving pages at main items, merged arrays, strings, physical bounds, trailing items; each is false of the code in a case (the _break(s) theorems), not in all. C30_iff says exactly when optimizing keeps the meaning, for every descriptor that compiles and hosts completing usages where they are declared. C30_optimized_pages_partial: hosts of both sorts, with a condition on the pages of the tree (C30_pages_break shows it cannot be dropped). |
| C31 | Compiled bytes mean the descriptor | partial | Model/Descriptor, Streamer | induction on the tree | As C29 and C30, on bytes (C31_report_breaks). C31_optimized_iff: exactly when the optimized bytes keep the meaning, under the conditions of C30_tree_iff. C31_optimized_pages_partial: hosts of both sorts read the optimized bytes. |
| C32 | Values are aligned | partial | Model/Descriptor, Streamer | induction on the tree | Missing, false of the code: values with a count whose further fields break the alignment (C32_counts_break), Report(0) after another report (C32_zero_report_breaks). C32_iff: exactly which elements are aligned, in all descriptors without Report(0) after another report. C32_bytes_iff: the same in the bytes written, with the default optimization too. |
| C33 | Alignment padding is minimal | partial | Model/Descriptor, Streamer | induction on the tree | C33_padding_bound has no condition on the tree. Missing, false of the code: padding where a count made the streamer lose track (C33_counts_break), Report(0) after another report (C33_zero_report_breaks). C33_iff: exactly where the padding is the least possible, likewise. C32_bytes_iff, C33_bytes_bound: the same in the bytes written, with the default optimization too. |
| C34 | Compiled collections are balanced | proved | Model/Descriptor, Streamer | induction on the tree | - |
| C35 | Report ID scopes to its subtree | partial | Model/Descriptor, Streamer | induction on the tree | C35_report_exact_partial and C35_iff have no condition on the tree: elements are in the report entered last, which tells exactly when it is theirs. Missing, false of the code: values after the end of a Report (C35_values_after_report). C35_bytes_iff: the same in the bytes written, with the default optimization too. |
| C36 | Value constructor defaults | partial | Model/Descriptor, Streamer | induction on the tree | C36_fields_partial and C36_raises_partial say exactly what is kept and when the constructor raises. Against the property, false of the code: the physical maximum of a named array defaults to None (C36_array_physical_breaks); a usage range of negative length raises too. |
| C37 | No leakage between values | proved | Model/Descriptor, Streamer | induction on the tree | - |
| C38 | Decompiler nesting | partial | Model/Extractor | invariant of the extractor along the stream | C38_exact: for every stream whether it is decompiled, and the error otherwise, by a reading of streams that does not refer to the decompiler (Spec/Rebuild.lean); C39_exact and C39_document_exact give the tree, so the nesting that is rebuilt. C38_nesting_partial, C38_rebuilt_partial: conditions that make this what the claim says. The claim is false of the code where data items are taken for named arrays (C38_top_breaks, C38_beside_breaks, C38_nested_breaks, C38_no_usage_breaks, C38_no_value_breaks). |
| C39 | Decompiled values have the stream's meaning | partial | Model/Extractor | invariant of the extractor along the stream | C39_exact: for every stream, and C39_document_exact for every document in any format, what the decompiled tree describes or which error is raised; C39_iff: the streams with a tree of the same meaning. C39_values_partial, C39_hosts_partial, C39_named_partial: conditions on the items that are enough. The claim is false of the code for some streams of each sort left out (C39_*_break(s)). |
| C40 | Report grouping keeps values and IDs | proved | Model/Extractor | invariant of the extractor along the stream | - |
| C41 | Compile then decompile | partial | Model/Extractor | invariant of the extractor along the stream | C41_named_partial: with named arrays that have a usage. C41_optimized_partial, C41_optimized_bytes_partial: the same after the optimizer, on the items and on the bytes the compiler writes by default. C41_iff (items), C41_bytes_iff (bytes, optimized or not, no condition): exactly which compiled descriptors are decompiled to a tree of the same meaning. Missing: the other trees, for which the property is false of the code, C41_*_breaks. C41_optimized_pages_partial, C41_optimized_pages_bytes_partial: all conditions are on the tree. |
| C42 | Decompile then compile | partial | Model/Extractor | invariant of the extractor along the stream | C42_compiles: which decompiled trees compile. C42_exact, C42_document_exact: for every stream, whether the decompiled tree compiles and what to. C42_iff, C42_document_iff: exactly which streams keep their meaning. C42_items_iff, C42_document_items_iff: the items of the rebuilt descriptor, for every stream. Missing: the other streams, for which the property is false of the code, C42_*_breaks. C42_optimized_partial: with the default optimization, conditions on the meaning of the document only; each is needed in some case (C42_optimized_keyboard_breaks, C42_optimized_bounds_breaks, C42_optimized_pages_breaks). |
| C43 | Decompiler keeps every collection | partial | Model/Extractor | invariant of the extractor along the stream | C43_iff: the streams of which every collection is in the tree. C43_kinds_partial: kinds and nesting, every calm stream without empty collections (Push/Pop, several ranges, arrays, strings as they like). C43_collections_partial: the usages too, for Extractable streams. False of the code: empty collections (C43_empty_lost), NamedArray collections around a Variable item (C43_named_lost), streams that are refused (C38_*_breaks). |
| C44 | Printed script rebuilds the value | partial | Model/Dumper, Decompiler | induction on the tree against the script reader | Decompiled descriptors: C44_exact and C44_command_exact say exactly which scripts run and which rebuild the descriptor. Descriptors written by hand, from integers and the constants of the library each in its place and without empty named arrays: C44_authored_exact says exactly the same. Any descriptor: C44_script_partial; missing: constants in the wrong place (a unit as flags, say) and named constants made by the program. The C44_*_breaks theorems refute the property, one descriptor of each sort. C44_optimized_partial: there and back with the default optimization. |
| C45 | Named arrays become array fields | partial | Model/Streamer | evaluation of one value | Missing, false of the code: named arrays with a usage get the Variable flag (C45_usage_breaks). C45_iff: exactly the values without a usage. |
| C46 | Usage split and join | proved | Model/Usage, Item | arithmetic, induction on lists | - |
| C47 | Usage lookup keeps the value | proved | Model/Usage, Item | arithmetic, induction on lists | - |
| C48 | UsageRange behaves like the list it denotes | partial | Model/Usage, Item | arithmetic, induction on lists | from_array: every array. Missing, false of the code: ranges with max < min - 1 (C48_range_inverted), indices outside 0..len-1 (C48_negative_index_breaks). C48_iff: exactly these. |
| C49 | Unit dimensions pack independently | proved | Model/Usage, Item | arithmetic, induction on lists | - |
| C50 | Unit naming keeps the value and prints a real name | partial | Model/Item, UsageTable | complete evaluation of the finite table, lemmas for Button and Ordinal | Missing, false of the code: Unit.Velocity does not exist (C50_velocity). |
| C51 | Usage table consistency | partial | Model/Item, UsageTable | complete evaluation of the finite table, lemmas for Button and Ordinal | Missing, false of the code: four names that are no attributes (C51_misread), one constant on another page (C51_wrong_page). |
| C52 | Item equality is an equivalence on class and value | proved | Model/Item, Descriptor, Formatter | algebra, induction on operations or items | - |
| C53 | Item ordering is a strict order | partial | Model/Item, Descriptor, Formatter | algebra, induction on operations or items | Missing, false of the code: < is neither asymmetric nor transitive (C53_lt_not_asymm, C53_lt_not_trans). C53_iff: < is a strict order exactly on sets of items any two of which compare the same way, or equal, in kind, tag and value. |
| C54 | Collection containers behave like lists | partial | Model/Item, Descriptor, Formatter | algebra, induction on operations or items | Missing, false of the code: pop returns None (C54_pop_returns_none). |
| C55 | Code formatter indentation returns to zero | partial | Model/Item, Descriptor, Formatter | algebra, induction on operations or items | Missing, false of the code: wrong nesting with equal numbers is not reported (C55_misnested_not_reported). C55_iff: exactly which streams are judged right. |
| C56 | Names shown for parsed items | proved | Model/Parser, Item | invariant of the page along the stream | - |
| C57 | Optimized streams repeat no global | partial | Model/Optimizer | views of the stream kept by each pass | Globals other than UsagePage: every stream. UsagePage: every compiled tree and every stream without UsagePage items. C57_page_repeats: in any stream the optimizer repeats the page at most as often as the stream has UsagePage items of its own, so none of those it adds is redundant. Missing, false of the code: UsagePage items of the stream that set again what the optimizer has already written (C57_explicit_page_repeats). |
| C58 | Optimizing never makes a descriptor longer | partial | Model/Optimizer | views of the stream kept by each pass | C58_bound, C58_compiled_bound, C58_command_bound: without conditions, how much longer it can get at most. Missing, false of the code: C58_wide_usage_longer, C58_short_usage_longer, C58_shared_count_longer. |
| C59 | Which descriptors compile | proved | Model/Streamer | induction on the tree | - |
| C60 | Combining constants | proved | Model/Constant | bits of integers | - |
| C61 | Checking a descriptor against expected code | proved | Model/Compiler, Command | C12 and C17, induction on the items | - |
| C62 | What a command has written when it stops | proved | Model/Command | induction on items and tree | - |
| C63 | Format names, standard streams and files | partial | Model/Command | induction on items and tree | Names: exact. Channels: proved for hex and code everywhere and for binary on the standard streams (C63_channels_partial). Missing, false of the code: binary files, which are opened as text (C63_binary_output_breaks, C63_binary_input_breaks). |
| C64 | Optimizing does not make a descriptor unwritable | proved | Model/Optimizer | bounds of values kept by each pass | - |
| C65 | Registered usages do not change bytes | proved | Model/Optimizer, Command | simulation between two registries | - |
| C66 | Which descriptors can be written | proved | Model/Streamer, Compiler | exact items of a tree | - |
| C67 | Scripts are written completely or not at all | partial | Model/DumperTrace | induction on the tree | Proved of the file named for the output, for every input: nothing with an exception, or a whole script. On standard output, the default, the claim is false: a line is printed for arrays of non-consecutive usages (C67_message_breaks) and the decompiler's state with an exception (C67_exception_breaks). C67_quiet_partial and C67_messages_partial say when standard output is the script alone, the latter exactly. C67_printed says, for every input, what is printed: lines about arrays, then, only with an exception, a line naming the item that caused it, and no script. |
| C68 | Optimizing again changes nothing | partial | Model/Optimizer | invariants between a run and the run on its output | Every stream: designators, physical bounds, the three range merges; global merging is C19_idempotent. Usage pages: exact condition. Main items: partial, false outside (C68_zero_count_breaks, C68_open_stream_breaks). Whole optimizer: false of the code (C68_optimize_twice_breaks, C68_passes_twice_breaks). |
| C69 | Only the order of elements matters | proved | Model/Command | the streamer token by token | - |
| C70 | Constants and their numbers are interchangeable | partial | Model/Command, Optimizer | simulation between two writings of a descriptor | Proved for every descriptor without negative kinds whose usages are given in both forms or in neither (C70_bytes_partial, C70_value for the constructor). False of the code, with witnesses: usage 0 as a number is taken for no usage (C70_zero_breaks); kind -1 as a number is the last known kind (C70_kind_breaks). |
| C71 | Layout of the texts written | proved | Model/Formatter | induction on the items | C71_c_values reads the text with the first phases of a C compiler (trigraphs, joined lines, comments, preprocessing numbers, constants). |
| C72 | Decompiling recognises named arrays | partial | Model/Extractor | invariant of the extractor along the stream | C72_iff: the streams of which named arrays and nothing else are recognised. C72_named_partial: streams of NamedExtractable. False of the code for some others (C72_second_breaks: a second field in the collection of a named array). |
| C73 | Rebuilding settles | partial | Model/Extractor, Streamer, Decompiler | the extractor run on what the streamer writes, token by token | C73_iff, C73_commands_iff: exactly which documents settle (`rewritten` says item by item what a rebuild writes, for every stream). C73_third_items, C73_third, C73_third_on, C73_commands_third: every document, with no condition on it, is the same from the third rebuild on (or a rebuild fails); C73_two_break, C73_two_break_document: two rebuilds are not enough. C73_third_items_iff, C73_third_iff: after two rebuilds there is a third exactly when a collection is left; C73_outcome: so every document that can be rebuilt twice loses its collections and is refused, or stays the same from the third rebuild on; C73_lost_breaks, C73_crowded_breaks: documents that cannot be rebuilt a third or a second time. C73_rebuilt_partial (what the second tree is), C73_settles_partial (items), C73_commands_partial (the commands): decompiled trees that are Steady. Missing: other trees; false of the code for some (C73_report_breaks: report 0 after report 1; C73_array_breaks: NamedArray collection with a usage not listed for arrays; C73_end_breaks: a field outside collections before an empty collection; C73_padding_breaks: padding of no bits alone in a report). |
| C74 | A descriptor can be kept in any format | proved | Model/Parser, Formatter, Command | reading depends on class and value only, induction on the bytes | - |
| C75 | Optimizing invents nothing | proved | Model/Optimizer | invariant of each stage along the stream | - |
| C76 | Descriptors can be merged | proved | Model/Streamer | simulation of two compilers along the tokens | - |
| C77 | Usage constants are those of HID | partial | Model/UsageTable | every constant compared with a table of HID | The tables of HID are in Spec/Hut, written from knowledge of the HID Usage Tables (no copy is available here). Missing, and false of the code: desktop.SystemDisplayRotationLockButton (page 0x10) and led.PlayerIndicator, led.Player1 to led.Player8 (0x4e to 0x56, HID: 0x60 to 0x68), C77_off_number; the events of sensors are declared named arrays where HID has selectors, and sensors.DataFieldGPSSelectionMode is not where HID has one, C77_off_kind. C77_arcade: the arcade module, which hrdc.usage does not import, has the numbers of HID on a vendor page. |
| C78 | Units mean what they are called | partial | Model/Item | digits of the value (C49), every named unit | Compositions: all. Names: missing, and false of the code: Unit.Second, Unit.Ampere and Unit.Candela, which have no system (C78_no_system). |
| C79 | Reports are laid out independently | partial | Model/Streamer, Optimizer | exact meaning of the tokens, filtered by report | Missing, and false of the code: elements after the end of a Report, which go into it (C79_after_report_breaks; C79_entered_partial has no such condition, counting them there), and Report(0) after another report (C79_zero_report_breaks); optimized, trees that are not OptTree (C79_physical_breaks) and values on several pages for hosts resolving pages at main items (C79_pages_break). C79_frames_partial: what is not a name is independent also for these, optimized or not. C79_exact: every descriptor that compiles, by the places the code gives elements (Spec/Placed.lean), with no condition on the end of reports or Report(0). |
| C80 | Hosts read what devices put in reports | partial | Model/Streamer, Optimizer | two-complement round trip, offsets of device and compiler in step along the elements | Missing, and false of the code: elements after the end of a Report (C80_after_report_breaks), values of several fields before larger alignments (C80_count_breaks), named arrays that have a usage (C80_array_breaks); optimized, as C79. C80_numbers_partial: the numbers alone, optimized too, with no condition on names, pages, arrays or physical bounds. C80_entered_partial: elements after the end of a Report too, counted in the report entered last. C80_exact: every descriptor that compiles, optimized or not: where a device has to put the numbers, and what the host is told. C80_layout_partial: a test on the tree, weaker than the other conditions, for devices that follow the tree. |
| C81 | Optimizing keeps the fields | partial | Model/Optimizer | C27: each pass, with the group open at the end of the stream | C81_compile: every descriptor that compiles, with no condition. Missing, and false of the code: streams that are read and have Push/Pop (C81_push_pop_breaks) or data items after the last collection (C81_trailing_breaks). C81_iff says exactly which streams without Push/Pop keep their fields. |
| C82 | Recompiling keeps numbers at their places | partial | Model/Extractor, Streamer, Optimizer | C42 exactly, without names: elements in step with data items, offsets with bits | KeepsPlaces lists the conditions; without them false of the code: Pop (C82_pop_breaks), fields that are not aligned (C82_alignment_breaks), report 0 after another (C82_report_breaks), several buffered fields (C82_buffered_breaks), data items after the last collection (C82_trailing_breaks). No condition on usages, ranges, arrays, strings, units, physical bounds or nesting. C82_exact: where the numbers are after recompiling any document with all collections closed; C82_iff: when this is where they were. |
| C83 | Documents can be put together | proved | Model/Parser, Formatter | the readers on appended input, induction on the first document | - |
| C84 | Edits stay where they are | proved | Model/Streamer, Compiler | simulation of two streamers along the tokens | - |
| C85 | Documents can be decompiled together | proved | Model/Extractor | simulation of the extractor alone and behind a document, item by item | C85_trees, C85_errors (items), C85_described (what the tree describes), C85_documents (any format, names aside), C85_script (the script), C85_merged (descriptors), C85_many, C85_many_described (any number of streams). Conditions (Spec/Seam.lean) are needed: C85_global_breaks, C85_open_breaks. |
| C86 | Optimizing can be left for later | proved | Model/Optimizer, Compiler, Converter | simulation of the passes on items that agree in class and value | C86_later (binary, hexadecimal), C86_code, C86_chain (formats in between), C86_passes (library). Proofs/Wire.lean: the passes look at class, value and the truth of locals only. A name with a line break in code: C86_newline_breaks. |
| C87 | How large decompiled descriptors are | proved | Model/Extractor, Dumper, Parser | elements in step with data items (C82), open and closed collections counted along the stream, induction on the tree | - |
| C88 | How large compiled descriptors are | proved | Model/Streamer, Compiler | exact items of a tree, induction on the tokens; C58 | - |

## Trusted base

- Lean 4.33.0 and its kernel.  No axiom, `sorry`, `native_decide` or `bv_decide` is used.
- Axioms, from `#print axioms` on every theorem of the manifest: at most `propext`, `Classical.choice` and
  `Quot.sound`.
  - none: `C55_misnested_not_reported`.
  - `propext` only: `C18_push_pop_breaks`, `C21_push_pop_breaks`, `C21_reset_before_collection_breaks`, `C21_return_to_logical_breaks`, `C24_split_designators_break`, `C28_streaming`, `C53_lt_partial`, `C54_pop_returns_none`, `C60_arithmetic`, `C60_int_left_breaks`, `C72_plain`, `C73_two_break`.
  - `Quot.sound`, `propext`: `C17_comparer_exact`, `C18_repeats_noPushPop`, `C20_constant`, `C21_exact`, `C21_exact_all`, `C21_iff`, `C21_iff_all`, `C40_grouping`, `C49_nibble_range`, `C49_unit_packing`, `C52_item_eq`, `C54_container_partial`, `C55_close_warns_partial`, `C68_designator_uniq`, `C68_physical_merge`, `C71_hex`, `C78_composable`.
  - all three: the other 450 theorems.
- The reading of `/repo` as Lean definitions.  The code was not run: there is no Python environment for
  it here, so the model has been compared with the code by reading only, and by the repository's own tests
  evaluated on the model.
- The specifications, which were written by the same hand as the model.
- `int(math.log(m, 2))` is taken as the floor of the logarithm.  Floating point gives the same for all powers
  of two and for 2^k - 1 with k < 48, where it was tried; beyond, values are refused in either case.  This was
  checked by running plain Python on those values, not proved.
- Python runs with assertions.

## Modelled

Everything under `hrdc/`: items, parsers, formatters, comparer, optimizer passes, converter, descriptor
elements, streamer, compiler, extractor, decompiler, dumper, usages and the whole usage table, named
constants.  Scripts printed by the dumper are evaluated by `Spec/Script.lean`, a reader for the part of Python
they use.

## Not modelled

- Command-line parsing other than the choice of formats, files and `-O`/`-N`; buffering; characters that cannot
  be encoded on output.  The decoder of the locale is a parameter.
- Messages printed, except the warning of the code writer and those of the decompiler (of the lines it prints
  with an exception only the first, the others are a parameter).
- Operands that are neither ints nor constants.
- Items holding a named constant where the optimizer or extractor does arithmetic with it.
- `setup.py`, `doc` and `examples`.

## Defects found

Each is a theorem of the table unless marked (read).

- Binary files named on the command line can be neither read nor written (C63).
- MainMerge merges arrays, misplaces strings, ignores Push/Pop, mishandles data items at the end (C20).
- GlobalMerge and UsagePage ignore Push/Pop (C18, C23); PhysicalMerge drops bounds still needed (C21).
- UsagePage gives 16-bit usages page 0 (C23), so `converter -O` breaks usual descriptors (C25).
- Optimized output can be longer (C58) and can repeat a page (C57).
- The streamer counts one field of values with a count (C32, C33), does not leave reports (C35), does not
  write Report(0) (C32), writes named arrays with a usage as Variable fields (C45), takes negative kinds (C05).
- The extractor drops empty collections (C43), strings of collections, all but one range, Push/Pop (C39), and
  fails on some balanced streams (C38).
- The dumper prints `Unit.Velocity` (C50), four usage names and kinds that are not attributes (C44, C51), and
  loses flags above bit 8 (C44).
- `desktop.SystemDisplayRotationLockButton` is on a wrong page, Button(65536) is Ordinal(0) (C51).
- The player LEDs do not have the numbers of HID, events of sensors are declared as arrays (C77); Unit.Second,
  Unit.Ampere and Unit.Candela have no system and so are no units (C78).
- `pop()` of containers returns None (C54); `<` of items is no order (C53); `1 + constant` raises (C60).
- `r[-1]` of a usage range is outside of it (C48).
- The code reader loses bytes after `//` in a block comment (C14).
- Merged report counts may pass 32 bits and then do not encode (C64).
- Optimizing an optimized descriptor moves its usages to page 0 (C68).
- Messages of the decompiler get into the script on standard output (C67).
- A usage 0 given as a number is no usage, as a constant it is one (C70).
