{"id": "C01", "title": "Item encode/decode round trip", "statement": "Encoding any constructible item whose value fits 32 bits and parsing the bytes back yields an item of the same class with the same integer value.", "quantifier": "every item class and every integer value the class accepts in the 32-bit range", "why_tests_cant": "27 classes x 2^32 values, signed and unsigned, with data-dependent payload width", "anchors": ["hrdc/stream/item.py: Item.bytes", "hrdc/stream/item.py: Item.parse", "hrdc/stream/item.py: Item.__init__"]}
{"id": "C02", "title": "Wire format is the HID short-item format", "statement": "The bytes of an item are one header byte (tag in bits 7..4, type in bits 3..2, size code in bits 1..0) followed by the value in little-endian order, two's complement exactly for the signed items; an independent HID short-item decoder reads back the same type, tag and value.", "quantifier": "every item that encodes without error", "why_tests_cant": "holds for every value, including every sign/width boundary", "anchors": ["hrdc/stream/item.py: Item.bytes"]}
{"id": "C03", "title": "Shortest payload", "statement": "The payload chosen is the shortest of 1, 2, 4 bytes that can hold the value (signed or unsigned as the class requires); the empty payload is used exactly for EndCollection.", "quantifier": "every item and value", "why_tests_cant": "boundary behaviour for all values, both signs", "anchors": ["hrdc/stream/item.py: Item.bytes"]}
{"id": "C04", "title": "Encoding fails exactly out of range", "statement": "bytes() raises if and only if the value does not fit 32 bits (unsigned for unsigned classes, two's complement for signed classes); it never emits truncated data.", "quantifier": "every item and every unbounded Python integer value", "why_tests_cant": "unbounded integers cannot be enumerated", "anchors": ["hrdc/stream/item.py: Item.bytes"]}
{"id": "C05", "title": "Item construction accepts exactly the legal values", "statement": "Building an item from a class and a value succeeds exactly when the value kept is not negative or the class is signed, and EndCollection, Push and Pop get 0; the item then has that class and that value. Collection(-7..-1) keeps kind 0..6 (Python indexing); Collection of an int below -7 raises IndexError, every other refusal is an AssertionError.", "quantifier": "every class and every integer or named-constant argument", "why_tests_cant": "all integers, all classes, all naming paths", "anchors": ["hrdc/stream/item.py: Item.__init__", "hrdc/stream/item.py: DataItem.__init__", "hrdc/stream/item.py: Collection.__init__", "hrdc/stream/item.py: EndCollection.__init__", "hrdc/stream/item.py: Unit.__init__", "hrdc/stream/item.py: Usage.__init__"]}
{"id": "C06", "title": "Parsing one item never misreads", "statement": "Item.parse raises on every (type, tag) outside the HID short-item table (including long items), on a payload of the wrong length, and on non-zero EndCollection/Push/Pop; otherwise it returns the class of that (type, tag) and the little-endian value with that class's signedness.", "quantifier": "every byte string", "why_tests_cant": "2^40 possible inputs and all wrong lengths", "anchors": ["hrdc/stream/item.py: Item.parse", "hrdc/stream/item.py: Item.itemclass"]}
{"id": "C07", "title": "Stream round trip", "statement": "Writing any list of items as binary and parsing the blob delivers the same items (class and value), in order, and then closes the output.", "quantifier": "every list of encodable items, any length", "why_tests_cant": "lists of unbounded length; a framing slip anywhere would shift every later item", "anchors": ["hrdc/stream/parser/base.py: Parser.blobParse", "hrdc/stream/formatter/binary.py: Binary.append"]}
{"id": "C08", "title": "Framing partitions the blob", "statement": "For every blob the parse loop terminates; when it succeeds, the consecutive item slices concatenate to the blob: no byte is skipped, duplicated or shared.", "quantifier": "every byte string", "why_tests_cant": "all byte strings", "anchors": ["hrdc/stream/parser/base.py: Parser.blobParse"]}
{"id": "C09", "title": "Truncation is detected", "statement": "Cutting a valid stream inside an item makes the parser raise, after having delivered exactly the complete items before the cut.", "quantifier": "every item list and every cut position", "why_tests_cant": "every crash/cut point", "anchors": ["hrdc/stream/parser/base.py: Parser.blobParse", "hrdc/stream/item.py: Item.parse"]}
{"id": "C10", "title": "Conversion is idempotent and value preserving", "statement": "Converting a binary descriptor to binary without optimization fails exactly when it cannot be parsed, and otherwise yields a descriptor that parses to the same item sequence; converting that again changes nothing.", "quantifier": "every blob", "why_tests_cant": "all blobs incl. non-canonical encodings", "anchors": ["hrdc/converter.py: _main", "hrdc/stream/parser/base.py: Parser.append"]}
{"id": "C11", "title": "Hex format round trip", "statement": "The hex reader applied to the hex writer's output recovers exactly the bytes of the item stream.", "quantifier": "every list of items", "why_tests_cant": "unbounded text, all byte values", "anchors": ["hrdc/stream/formatter/hex.py: Hex.append", "hrdc/stream/parser/hex.py: Hex.read"]}
{"id": "C12", "title": "C code format round trip", "statement": "The C-code reader applied to the C-code writer's output recovers exactly the bytes of the item stream, whatever the (newline-free) names in the comments and whatever the nesting depth.", "quantifier": "every list of items, every indentation, every comment text without newline", "why_tests_cant": "unbounded text; comment contents are arbitrary", "anchors": ["hrdc/stream/formatter/code.py: Code.append", "hrdc/stream/parser/code.py: Code.read"]}
{"id": "C13", "title": "All three formats carry the same stream", "statement": "For every item list, reading back the binary, hex or code rendering delivers the same item sequence, so any chain of conversions between formats delivers the same items.", "quantifier": "every list of encodable items and every pair of formats", "why_tests_cant": "unbounded streams", "anchors": ["hrdc/converter.py: _main", "hrdc/stream/parser/__init__.py", "hrdc/stream/formatter/__init__.py"]}
{"id": "C14", "title": "Code reader ignores comments and layout", "statement": "The bytes read from C code are those its comma-separated fields write in base 16: // comments to end of line, /* */ comments and all whitespace are ignored.", "quantifier": "every text", "why_tests_cant": "all texts", "anchors": ["hrdc/stream/parser/code.py: Code.read"]}
{"id": "C15", "title": "Hex reader takes exactly the two-digit hex words", "statement": "The hex reader returns one byte per maximal word that is two hex digits, optionally prefixed 0x, in order, and nothing else; it never raises.", "quantifier": "every text", "why_tests_cant": "all texts", "anchors": ["hrdc/stream/parser/hex.py: Hex.read"]}
{"id": "C16", "title": "Naming usages never changes values", "statement": "While parsing, resolving usage pages and usages to symbolic names leaves every item's class and integer value unchanged, whatever usages are registered and whatever page is current.", "quantifier": "every stream, every usage registry", "why_tests_cant": "depends on history of UsagePage items and on registry contents", "anchors": ["hrdc/stream/parser/base.py: Parser.append", "hrdc/usage/usage.py: Usage.inpage", "hrdc/usage/usage.py: Usage.lookup"]}
{"id": "C17", "title": "Comparer accepts exactly equality", "statement": "ExpectedStream passes if and only if the concatenated bytes of all appended items equal the expected bytes.", "quantifier": "every item sequence and every expected byte string", "why_tests_cant": "all sequences, incl. prefixes and overruns", "anchors": ["hrdc/stream/comparer.py: ExpectedStream.append", "hrdc/stream/comparer.py: ExpectedStream.close"]}
{"id": "C18", "title": "Global merging preserves meaning", "statement": "Removing global items that set a value already in force leaves the HID meaning (controls, collections, all attributes) of the stream unchanged.", "quantifier": "every item stream", "why_tests_cant": "depends on the whole history of global items", "anchors": ["hrdc/stream/optimizer/global_merge.py: GlobalMerge.append"]}
{"id": "C19", "title": "Global merging removes every redundancy", "statement": "After global merging no global item sets a global to the value that the previous item of that tag set (or to its HID default for Unit, UnitExponent and the physical bounds); running the pass again changes nothing.", "quantifier": "every item stream", "why_tests_cant": "all histories", "anchors": ["hrdc/stream/optimizer/global_merge.py: GlobalMerge.append"]}
{"id": "C20", "title": "Main merging preserves meaning", "statement": "Merging consecutive data items with the same characteristics into one with the summed ReportCount leaves the sequence of controls unchanged, each with its own usage, string, designator, size, ranges, unit and report ID.", "quantifier": "every item stream", "why_tests_cant": "depends on all pending items, counts and flush points", "anchors": ["hrdc/stream/optimizer/main_merge.py: MainMerge.append", "hrdc/stream/optimizer/main_merge.py: MainMerge.flush", "hrdc/stream/optimizer/main_merge.py: MainMerge.close"]}
{"id": "C21", "title": "Physical merging preserves meaning", "statement": "Dropping physical bounds that match the logical bounds leaves the effective physical range of every control unchanged.", "quantifier": "every item stream", "why_tests_cant": "depends on physical range left by earlier items", "anchors": ["hrdc/stream/optimizer/physical_merge.py: PhysicalMerge.append"]}
{"id": "C22", "title": "Range merging preserves meaning", "statement": "Replacing consecutive usage/string/designator index items by a minimum/maximum range leaves every control's usage, string and designator unchanged.", "quantifier": "every item stream", "why_tests_cant": "all runs of local items, all values", "anchors": ["hrdc/stream/optimizer/range_merge.py: RangeMerge.append", "hrdc/stream/optimizer/range_merge.py: RangeMerge.flush"]}
{"id": "C23", "title": "Usage page splitting preserves usages", "statement": "Splitting 32-bit usages into UsagePage + 16-bit usage leaves every control's and collection's full usage unchanged.", "quantifier": "every item stream", "why_tests_cant": "depends on the page left by the history", "anchors": ["hrdc/stream/optimizer/usage_page.py: UsagePage.append"]}
{"id": "C24", "title": "Designator pass preserves meaning", "statement": "Removing Designator(0) items leaves every control's and collection's designator unchanged.", "quantifier": "every item stream", "why_tests_cant": "depends on how designators are grouped per main item", "anchors": ["hrdc/stream/optimizer/designator_uniq.py: DesignatorUniq.append", "hrdc/stream/optimizer/designator_uniq.py: DesignatorUniq.close"]}
{"id": "C25", "title": "Optimized conversion rewrites with identical meaning", "statement": "`converter -O` outputs a descriptor with the same HID meaning as its input.", "quantifier": "every input descriptor", "why_tests_cant": "every stream through eight stateful passes", "anchors": ["hrdc/converter.py: _main", "hrdc/stream/optimizer/base.py: Optimizer.new", "doc/why.rst"]}
{"id": "C26", "title": "Optimizing keeps the collection structure", "statement": "The sequence of Collection and EndCollection items (with kinds) is the same before and after optimization, so balanced nesting stays balanced.", "quantifier": "every item stream (no restriction)", "why_tests_cant": "every stream through eight stateful passes", "anchors": ["hrdc/stream/optimizer/base.py: Optimizer.new"]}
{"id": "C27", "title": "Optimizing keeps report sizes", "statement": "The total number of bits of each report (direction, report ID) is the same before and after optimization.", "quantifier": "every item stream", "why_tests_cant": "report lengths are what drivers allocate; a miscount on any history corrupts reports", "anchors": ["hrdc/stream/optimizer/base.py: Optimizer.new", "hrdc/stream/optimizer/main_merge.py: MainMerge.flush"]}
{"id": "C28", "title": "Pass selection and streaming composition", "statement": "Optimizer.new(stream, min, max) builds exactly the passes with min < precedence < max, highest precedence first in the data flow; pushing items one by one through the nested passes gives the same output as running each pass on the complete output of the previous one.", "quantifier": "every bound pair and every item stream", "why_tests_cant": "all streams and all pass subsets", "anchors": ["hrdc/stream/optimizer/base.py: Optimizer.new"]}
{"id": "C29", "title": "Compiling a descriptor yields its meaning", "statement": "The unoptimized item stream of a descriptor tree has as HID meaning exactly the tree: every value with its own attributes, in order, inside its collections and report.", "quantifier": "every descriptor tree", "why_tests_cant": "trees of unbounded depth and width; global state leaks between values", "anchors": ["hrdc/descriptor/streamer.py: Streamer.element", "hrdc/descriptor/streamer.py: Streamer.enter", "hrdc/descriptor/streamer.py: Streamer.leave"]}
{"id": "C30", "title": "Optimized compilation yields the same meaning", "statement": "The default (optimized) compilation of a descriptor tree has the same HID meaning as the tree.", "quantifier": "every descriptor tree", "why_tests_cant": "unbounded trees through eight stateful passes", "anchors": ["hrdc/descriptor/compiler.py: compile_main", "hrdc/stream/optimizer/base.py: Optimizer.new"]}
{"id": "C31", "title": "Compiled bytes mean the descriptor", "statement": "Decoding the bytes a compiled descriptor writes, as a HID host would, gives the meaning of the descriptor tree.", "quantifier": "every descriptor tree", "why_tests_cant": "end to end over unbounded inputs", "anchors": ["hrdc/descriptor/compiler.py: compile_main", "hrdc/stream/formatter/binary.py: Binary.append"]}
{"id": "C32", "title": "Values are aligned", "statement": "In the compiled report layout every value starts at a bit offset (within its direction and report ID) that is a multiple of its alignment.", "quantifier": "every descriptor tree", "why_tests_cant": "offsets depend on everything before", "anchors": ["hrdc/descriptor/streamer.py: Streamer.element"]}
{"id": "C33", "title": "Alignment padding is minimal", "statement": "The padding inserted before a value or by Align is fewer bits than the boundary, and none when already aligned; Padding(n) inserts exactly n bits.", "quantifier": "every descriptor tree", "why_tests_cant": "all offsets and boundaries", "anchors": ["hrdc/descriptor/streamer.py: Streamer.element"]}
{"id": "C34", "title": "Compiled collections are balanced", "statement": "Every successful compilation of a tree gives properly nested Collection/EndCollection items, with no EndCollection without an open collection.", "quantifier": "every descriptor tree", "why_tests_cant": "unbounded nesting", "anchors": ["hrdc/descriptor/streamer.py: Streamer.enter", "hrdc/descriptor/streamer.py: Streamer.leave", "hrdc/descriptor/descriptor.py: Hierarchical.accept"]}
{"id": "C35", "title": "Report ID scopes to its subtree", "statement": "Report(id, ...) sets the report ID of exactly the values in its subtree.", "quantifier": "every descriptor tree", "why_tests_cant": "placement and nesting of reports in unbounded trees", "anchors": ["hrdc/descriptor/streamer.py: Streamer.enter", "doc/descriptor.rst"]}
{"id": "C36", "title": "Value constructor defaults", "statement": "Value(...) raises exactly when the documented bounds are missing; physical bounds default to the logical ones; a named array fixes flags and logicalMax = logicalMin + length - 1; alignment defaults to min(8, size).", "quantifier": "every combination of arguments", "why_tests_cant": "argument space is unbounded", "anchors": ["hrdc/descriptor/descriptor.py: Value.__init__"]}
{"id": "C37", "title": "No leakage between values", "statement": "The meaning contributed by a value does not depend on the attributes (ranges, units, usages, strings, designators) of any other value: replacing an earlier value by another of the same layout leaves the other events unchanged.", "quantifier": "every descriptor tree", "why_tests_cant": "all pairs of neighbouring values", "anchors": ["hrdc/descriptor/streamer.py: Streamer.element", "doc/descriptor.rst"]}
{"id": "C38", "title": "Decompiler nesting", "statement": "The decompiler accepts a stream's collections exactly when balanced: it raises on an EndCollection without open collection and rebuilds the nesting otherwise; the root is available exactly when all collections are closed at some point.", "quantifier": "every item stream", "why_tests_cant": "all nestings", "anchors": ["hrdc/descriptor/extractor.py: Extractor._append", "hrdc/descriptor/extractor.py: Extractor.leave"]}
{"id": "C39", "title": "Decompiled values have the stream's meaning", "statement": "For a stream of plain variable/constant data items, the values of the decompiled tree are, in order, the controls of the stream's HID meaning with the same attributes.", "quantifier": "every plain item stream", "why_tests_cant": "global/local state accumulates over unbounded streams", "anchors": ["hrdc/descriptor/extractor.py: Extractor.handleDataItem", "hrdc/descriptor/extractor.py: Extractor._append"]}
{"id": "C40", "title": "Report grouping keeps values and IDs", "statement": "Grouping into Report nodes keeps the members of every collection in order, and every value ends up under a Report carrying its own report ID.", "quantifier": "every extracted tree", "why_tests_cant": "unbounded trees", "anchors": ["hrdc/descriptor/extractor.py: Extractor.reportInsert", "hrdc/descriptor/extractor.py: Extractor.reportIdMerge"]}
{"id": "C41", "title": "Compile then decompile", "statement": "Decompiling a compiled (plain) descriptor gives a tree with the same meaning as the original tree.", "quantifier": "every descriptor tree of plain values", "why_tests_cant": "unbounded trees through compiler, optimizer and extractor", "anchors": ["hrdc/descriptor/extractor.py: Extractor", "hrdc/descriptor/streamer.py: Streamer"]}
{"id": "C42", "title": "Decompile then compile", "statement": "Recompiling a decompiled descriptor succeeds, and gives a descriptor with the same meaning as the original stream.", "quantifier": "every plain item stream", "why_tests_cant": "unbounded streams", "anchors": ["hrdc/descriptor/extractor.py: Extractor", "hrdc/descriptor/streamer.py: Streamer"]}
{"id": "C43", "title": "Decompiler keeps every collection", "statement": "Every collection of the stream appears in the decompiled tree.", "quantifier": "every item stream", "why_tests_cant": "all nestings incl. empty collections", "anchors": ["hrdc/descriptor/extractor.py: Extractor.leave"]}
{"id": "C44", "title": "Printed script rebuilds the value", "statement": "Evaluating the script the dumper prints for a descriptor rebuilds a descriptor with the same attributes, which compiles to the same bytes.", "quantifier": "every descriptor tree", "why_tests_cant": "argument omission rules interact for all values", "anchors": ["hrdc/descriptor/dumper.py: Dumper.element"]}
{"id": "C45", "title": "Named arrays become array fields", "statement": "A value with a named array compiles to an Array data item listing exactly the array's usages in order, with logical range logicalMin .. logicalMin+len-1.", "quantifier": "every named array and value", "why_tests_cant": "all arrays and ranges", "anchors": ["hrdc/descriptor/descriptor.py: Value.__init__", "hrdc/descriptor/streamer.py: Streamer.element"]}
{"id": "C46", "title": "Usage split and join", "statement": "split() of a usage gives its page (high part) and its 16-bit id, and inpage(page, id) looked up again gives the same id; page*65536+id restores the usage value, whatever the usage's name.", "quantifier": "every usage value and name", "why_tests_cant": "all values and names incl. names without dot", "anchors": ["hrdc/usage/usage.py: Usage.split", "hrdc/usage/usage.py: Usage.inpage", "hrdc/usage/usage.py: Usage.page"]}
{"id": "C47", "title": "Usage lookup keeps the value", "statement": "Usage.lookup of any int, named constant or usage returns a usage with the same integer value; for an int it returns the registered object exactly when one is registered and the value is outside 0..0xffff.", "quantifier": "every value and registry", "why_tests_cant": "all registries (Button/Ordinal extend it at run time)", "anchors": ["hrdc/usage/usage.py: Usage.lookup"]}
{"id": "C48", "title": "UsageRange behaves like the list it denotes", "statement": "len, indexing and iteration of UsageRange(min, max) agree with the list min..max, and from_array succeeds exactly on contiguous arrays of at least two and then denotes the same list.", "quantifier": "every pair of bounds, every array", "why_tests_cant": "unbounded ranges", "anchors": ["hrdc/usage/usage.py: UsageRange"]}
{"id": "C49", "title": "Unit dimensions pack independently", "statement": "Each unit dimension exponent in [-8, 7] occupies its own nibble as 4-bit two's complement; or-ing dimensions together, each can be read back; exponents outside raise.", "quantifier": "every exponent vector and every system code", "why_tests_cant": "16^6 combinations and all out-of-range integers", "anchors": ["hrdc/stream/item.py: _unit_nibble", "hrdc/stream/item.py: Unit"]}
{"id": "C50", "title": "Unit naming keeps the value and prints a real name", "statement": "Constructing Unit(v) keeps v, and every unit name the dumper prints is an attribute of Unit with that value.", "quantifier": "every unit value", "why_tests_cant": "2^32 values", "anchors": ["hrdc/stream/item.py: Unit.__init__", "hrdc/descriptor/dumper.py: Dumper.element"]}
{"id": "C51", "title": "Usage table consistency", "statement": "Every usage constant resolves by lookup to a name that is `module.attribute` of a constant with the same value, values are pairwise distinct, and all constants of a module lie on one usage page.", "quantifier": "all 1333 table constants plus Button and Ordinal (all n)", "why_tests_cant": "pairwise distinctness is quadratic in the table; run-time registered usages are unbounded", "anchors": ["hrdc/usage/*.py"]}
{"id": "C52", "title": "Item equality is an equivalence on class and value", "statement": "== between items is reflexive, symmetric and transitive and holds exactly when class and integer value agree (names are ignored).", "quantifier": "all items", "why_tests_cant": "all triples", "anchors": ["hrdc/stream/item.py: Item.__eq__"]}
{"id": "C53", "title": "Item ordering is a strict order", "statement": "< between items is irreflexive, asymmetric and transitive.", "quantifier": "all items", "why_tests_cant": "all triples", "anchors": ["hrdc/stream/item.py: Item.__lt__"]}
{"id": "C54", "title": "Collection containers behave like lists", "statement": "append, pop, indexing, iteration and len on Report/Collection/TopLevel behave as on the list of members given at construction.", "quantifier": "every sequence of operations", "why_tests_cant": "all operation histories", "anchors": ["hrdc/descriptor/descriptor.py: Hierarchical"]}
{"id": "C55", "title": "Code formatter indentation returns to zero", "statement": "The comment column of the code writer is indented by exactly the number of open collections; close() warns exactly when collections are unbalanced.", "quantifier": "every item stream", "why_tests_cant": "all nestings", "anchors": ["hrdc/stream/formatter/code.py: Code.append", "hrdc/stream/formatter/code.py: Code.close"]}
{"id": "C56", "title": "Names shown for parsed items", "statement": "Listing a parsed descriptor shows every item under its HID name and its value under the right name: a usage page by its title; a usage id by the last registered usage with the page in force and this id (the part after the first dot), in decimal when there is none; a full usage by its registered name, in hexadecimal when there is none; the bits of Input/Output/Feature, collection kinds and usual units by their names; every other value in decimal. Different pages, kinds and units are never shown alike.", "quantifier": "every blob (also one that becomes unreadable later), every position, every usage registry", "why_tests_cant": "the name depends on the history of UsagePage items and on the registry; tests see a few names", "anchors": ["hrdc/stream/parser/base.py: Parser.append", "hrdc/usage/usage.py: Usage.page, Usage.inpage, Usage.split, Usage.lookup", "hrdc/stream/item.py: Item.__str__, DataItem, Collection, Unit"]}
{"id": "C57", "title": "Optimized streams repeat no global", "statement": "In the stream written by the optimizer no global item (usage page, report size, report count, logical and physical bounds, unit, exponent, report id) gives its tag the value the tag already has, nor the HID default of a tag not yet set.", "quantifier": "every item stream", "why_tests_cant": "depends on the whole history of globals across every pass", "anchors": ["hrdc/stream/optimizer/global_merge.py: GlobalMerge", "hrdc/stream/optimizer/usage_page.py: UsagePage", "hrdc/converter.py: _main", "hrdc/descriptor/compiler.py: compile_main", "doc/optimizations.rst"]}
{"id": "C58", "title": "Optimizing never makes a descriptor longer", "statement": "The bytes written for a descriptor or item stream with optimization are no longer than without, whatever passes are selected.", "quantifier": "every descriptor tree, every item stream, every selection of passes", "why_tests_cant": "depends on values of every field and on which passes interact; tests compare a few lengths", "anchors": ["hrdc/stream/optimizer/*.py", "hrdc/descriptor/compiler.py: compile_main", "hrdc/stream/item.py: Item.bytes"]}
{"id": "C59", "title": "Which descriptors compile", "statement": "A descriptor tree compiles exactly when: every Report has an ID of at least 0; values and non-empty padding stand in reports below 256; collections have a usage and neither it nor the kind is negative; sizes, counts and flags of values are not negative; usages, unit, string and designator of values that are not constant are not negative; a usage range has a length of at least 0. Otherwise compile_main fails in every format.", "quantifier": "every descriptor tree, every registry", "why_tests_cant": "unbounded trees; an iff over all attributes", "anchors": ["hrdc/descriptor/streamer.py: Streamer", "hrdc/stream/item.py: Item.__init__"]}
{"id": "C60", "title": "Combining constants", "statement": "Combining constants and ints with | or &, in either order, sets exactly the bits the operator says, and ~ inverts every bit, for negative values too. A constant on the left of +, *, << or >> gives the integer result (a negative shift fails); an int on the left of a constant fails. Flags ORed together have exactly the bits of each, in any order.", "quantifier": "every pair of integers and names", "why_tests_cant": "integers are unbounded; two's complement of negative values", "anchors": ["hrdc/util/named_constant.py: NamedConstant"]}
{"id": "C61", "title": "Checking a descriptor against expected code", "statement": "descriptor_expected passes exactly when the expected code can be read and its bytes are those compile_main writes for the descriptor; in particular the code compile_main writes passes, as long as no name has a newline. Code that cannot be read is reported first; where compile_main writes other bytes the exception is AssertionError.", "quantifier": "every descriptor tree, every text", "why_tests_cant": "the helper is what the tests use; it must neither accept a wrong output nor reject a right one", "anchors": ["hrdc/descriptor/test.py: descriptor_expected", "hrdc/stream/comparer.py: ExpectedStream"]}
{"id": "C62", "title": "What a command has written when it stops", "statement": "Whatever the input or the descriptor, and whatever exception ends converter or compile_main, what has been written is the document of the first items the command would write, none of them in part. The command ends without exception exactly when the whole document is written. Without -O the converter has written every item before the point where the input becomes unreadable; compile_main -N has written every element before the first illegal one, unless an item among them cannot be encoded, where it stops.", "quantifier": "every input in every format, every descriptor tree, every output format, with and without optimization", "why_tests_cant": "tests look at runs that succeed; partial output depends on where any of the failures hits", "anchors": ["hrdc/converter.py: _main", "hrdc/descriptor/compiler.py: compile_main", "hrdc/stream/parser/base.py: Parser.blobParse", "hrdc/descriptor/streamer.py: Streamer"]}
{"id": "C63", "title": "Format names, standard streams and files", "statement": "The formats are named binary, hex and code; any other name stops a command with KeyError before anything is read or written. A format works on files named on the command line as it does on standard input and output.", "quantifier": "every name, every format, every input, every descriptor tree", "why_tests_cant": "tests do not run the commands on files", "anchors": ["hrdc/converter.py: _main", "hrdc/descriptor/compiler.py: compile_main", "hrdc/descriptor/extractor.py: main", "hrdc/stream/parser/binary.py: Binary.__init__", "hrdc/stream/formatter/binary.py: Binary.__init__"]}
{"id": "C64", "title": "Optimizing does not make a descriptor unwritable", "statement": "What is converted or compiled without optimization is also converted or compiled with it, in every output format and with any selection of passes, when no report count plus the number of Input, Output and Feature items passes 2^32; the bound is sharp.", "quantifier": "every input document and format, every descriptor tree, every registry, every selection of passes", "why_tests_cant": "the passes build new items from unbounded streams and any of these may have a value without encoding", "anchors": ["hrdc/stream/optimizer/main_merge.py: MainMerge", "hrdc/stream/optimizer/base.py: Optimizer.new", "hrdc/stream/item.py: Item.bytes", "hrdc/converter.py: _main", "hrdc/descriptor/compiler.py: compile_main"]}
{"id": "C65", "title": "Registered usages do not change bytes", "statement": "Which usages are registered (usage modules imported, buttons and ordinals made before) never changes the bytes or hex digits the converter and the compiler write, with or without optimization and before an exception too, nor the exception raised in any format, nor the outcome of descriptor_expected.", "quantifier": "every two registries, every input document and format, every descriptor tree", "why_tests_cant": "usages are looked up, split and rebuilt at every stage, and Python truth values of named and unnamed values differ; tests import one fixed set of modules", "anchors": ["hrdc/usage/usage.py: Usage.lookup, Usage.split", "hrdc/stream/parser/base.py: Parser.append", "hrdc/stream/optimizer/usage_page.py: UsagePage", "hrdc/stream/optimizer/range_merge.py: RangeMerge", "hrdc/descriptor/streamer.py: Streamer"]}
{"id": "C66", "title": "Which descriptors can be written", "statement": "Compiling without optimization writes a document, in any of the formats, exactly when the descriptor is legal in the sense of C59 and all its numbers (bounds and exponent signed, everything else unsigned, inserted padding included) fit in 32 bits; otherwise an exception is raised.", "quantifier": "every descriptor tree, every registry, every format", "why_tests_cant": "any of a dozen numbers of any element of any tree may be the one without encoding, and each may be skipped, replaced or wrapped on its way to the item", "anchors": ["hrdc/descriptor/streamer.py: Streamer.element", "hrdc/stream/item.py: Item.bytes", "hrdc/descriptor/compiler.py: compile_main"]}
{"id": "C67", "title": "Scripts are written completely or not at all", "statement": "The decompiler ends with an exception having written nothing to its output (the file named, or standard output), or without one having written there a script, and nothing else, from its first line to the call of compile_main. Dumping a descriptor built with the constructors never raises.", "quantifier": "every input, format name, decoder and registry; every descriptor made of values the constructor returns", "why_tests_cant": "the dumper writes piece by piece while it visits the tree, and could stop anywhere in it", "anchors": ["hrdc/descriptor/dumper.py: Dumper", "hrdc/descriptor/extractor.py: main"]}
{"id": "C68", "title": "Optimizing again changes nothing", "statement": "A pass run on its own output sends on that output unchanged; optimizing an optimized descriptor gives the same descriptor.", "quantifier": "every pass, every item stream", "why_tests_cant": "a second run meets only streams the first produced, and whether it finds more to do depends on state the first run carried across the whole stream", "anchors": ["hrdc/stream/optimizer/base.py: Optimizer.new", "hrdc/stream/optimizer/main_merge.py", "hrdc/stream/optimizer/range_merge.py", "hrdc/stream/optimizer/physical_merge.py", "hrdc/stream/optimizer/designator_uniq.py", "hrdc/stream/optimizer/usage_page.py"]}
{"id": "C69", "title": "Only the order of elements matters", "statement": "Descriptors that list the same collections, reports and elements in the same order compile alike, however they are grouped in TopLevel elements: a TopLevel can be replaced by its members, and an empty one left out. What the first members compile to does not depend on those after them.", "quantifier": "every descriptor, registry, format and output, with and without -N", "why_tests_cant": "there is no bound on how elements can be grouped", "anchors": ["hrdc/descriptor/streamer.py: Streamer", "hrdc/descriptor/descriptor.py: Hierarchical, TopLevel"]}
{"id": "C70", "title": "Constants and their numbers are interchangeable", "statement": "Giving a usage, unit, flags or collection kind as a named constant or as the number it stands for, or a named array as a list or as a range of usages, makes no difference to the bytes written, nor to the exception raised.", "quantifier": "every descriptor, every registry, with and without -N", "why_tests_cant": "any attribute of any element may be written either way, and constants differ from numbers in truth value", "anchors": ["hrdc/descriptor/descriptor.py: Value.__init__", "hrdc/descriptor/streamer.py: Streamer", "hrdc/stream/item.py: DataItem, Collection, Unit, Usage", "hrdc/util/named_constant.py: NamedConstant"]}
{"id": "C71", "title": "Layout of the texts written", "statement": "Hex output is one line per item: its bytes as two lower-case digits each, separated by single spaces. C-code output is one line per item: its bytes from column 5 as constants 0xhh each followed by a comma, then, always from column 36, a // comment that shows the item, indented by four columns per open collection. To a C compiler, which drops comments and white space, the text is exactly the list of the bytes, whatever the (newline-free) names shown.", "quantifier": "every list of items that can be encoded", "why_tests_cant": "unbounded text; all byte values, names and nestings", "anchors": ["hrdc/stream/formatter/hex.py: Hex.append", "hrdc/stream/formatter/code.py: Code.append"]}
{"id": "C72", "title": "Decompiling recognises named arrays", "statement": "A collection that holds nothing but one field, which lists one usage for each of its values, is decompiled as a named array (an Array field choosing among those usages) when it is a Logical collection whose usage the usage table marks as that of named arrays, or a NamedArray collection around a Variable field; every other main item keeps its meaning.", "quantifier": "every stream of items, every usage table", "why_tests_cant": "any usages, counts and ranges; any surroundings, with any state left by earlier items", "anchors": ["hrdc/descriptor/extractor.py: Extractor", "hrdc/usage/usage.py: UsageType.test"]}
{"id": "C73", "title": "Rebuilding settles", "statement": "Decompile a document, run the script and compile it without optimization. Doing the same with the result gives the same document again, and from then on the same script; the first rebuild keeps the elements and their reports, only naming the usages the usage table knows and adding the padding that puts fields on their boundaries.", "quantifier": "every document that can be decompiled and whose script compiles, every format it is read in, bytes or hex written", "why_tests_cant": "any document; the second script is read from what the first one compiled to, so each rebuild could drift", "anchors": ["hrdc/descriptor/extractor.py: Extractor", "hrdc/descriptor/streamer.py", "hrdc/descriptor/dumper.py"]}
{"id": "C74", "title": "A descriptor can be kept in any format", "statement": "A descriptor that can be read can be stored as hex, as binary or as code, converted back and forth between them any number of times without optimization: no conversion fails, and whatever reads the last document is given the very items it would have been given by the first, so converting, optimizing, printing or decompiling it gives the same result. Two documents with the same item classes and values are interchangeable in the same way.", "quantifier": "every document that can be read, in each of the three formats, every chain of conversions, any registry of names that contain no line break, every command that reads a descriptor", "why_tests_cant": "any chain of formats, any document and any later use of the result", "anchors": ["hrdc/converter.py: _main", "hrdc/stream/parser", "hrdc/stream/formatter", "hrdc/descriptor/extractor.py"]}
{"id": "C75", "title": "Optimizing invents nothing", "statement": "The fields and collections of an optimized descriptor are main items of the original in the same order; so are its global items, apart from Report Counts, which are added up, and Usage Pages, which are introduced, and its Delimiters. Every string and designator index it holds is an index of the original, and the ends of its string and designator ranges are ends of ranges or indices of the original.", "quantifier": "every list of items, every selection of optimizer stages by precedence, any registry of names", "why_tests_cant": "any stream, including badly nested ones and ones with Push and Pop, and any selection of stages", "anchors": ["hrdc/stream/optimizer/base.py: Optimizer.new", "hrdc/stream/optimizer/main_merge.py", "hrdc/stream/optimizer/range_merge.py", "hrdc/stream/optimizer/physical_merge.py", "hrdc/stream/optimizer/global_merge.py", "hrdc/stream/optimizer/designator_uniq.py", "hrdc/stream/optimizer/usage_page.py"]}
{"id": "C76", "title": "Descriptors can be merged", "statement": "Put together in one TopLevel, descriptors that have no report in common (no two have fields of the same direction in a report of the same ID) compile to the items of each, one after the other, if all elements of a later descriptor come after a Report of its own with an ID other than 0 or the earlier ones have no Reports. A host finds the collections and fields of the first, in their reports and at their places, then those of the second; if one raises, the items before and the exception are those it gives alone. Written without optimization, the merged bytes are those of each, one behind the other; with the default optimization a host finds in the merged bytes the fields it finds in the bytes of each. (Optimized bytes cannot be concatenated: the second leave out what a host starts with.) Without these conditions fields do move: elements outside Reports join the last report of the earlier descriptor, and alignment in a shared report counts the fields of both.", "quantifier": "every pair of trees meeting the condition, whether they compile or not (items and exceptions), every list of trees that compile alone and meet it pairwise, both readings of usage pages, any registry", "why_tests_cant": "any two trees; the state the compiler keeps between elements (current report, bits per report) must not leak for any of them", "anchors": ["hrdc/descriptor/streamer.py", "hrdc/descriptor/descriptor.py: TopLevel", "doc/descriptor.rst"]}
{"id": "C77", "title": "Usage constants are those of HID", "statement": "The constant a usage module has under a name is the usage the HID Usage Tables have under that name: the page in the upper 16 bits, the number in the page in the lower ones. The constants declared as named arrays, on which the decompiler relies to tell choices from fields, are those HID declares as named arrays. Button(n) and Ordinal(n) are usage n of the Button and Ordinal pages.", "quantifier": "every constant of the modules hrdc.usage imports, every 16-bit n", "why_tests_cant": "a wrong number or kind in one of 1300 constants yields a descriptor that compiles, dumps and decompiles consistently and is wrong only for the host; buttons are unbounded in number for tests", "anchors": ["hrdc/usage/*.py", "hrdc/descriptor/extractor.py: Extractor.handleDataItem"]}
{"id": "C78", "title": "Units mean what they are called", "statement": "A unit composed with system | length(a) | mass(b) | time(c) | temperature(d) | current(e) | luminousintensity(f) is read by a HID host as the product of the base units of that system to these powers; it can be composed exactly when the exponents are from -8 to 7. The unit a listing names, and the constant of that name, is the unit HID means by that value.", "quantifier": "every system, every exponents; every unit value", "why_tests_cant": "4 * 16^6 compositions, 2^32 values", "anchors": ["hrdc/stream/item.py: Unit", "doc/descriptor.rst"]}
{"id": "C79", "title": "Reports are laid out independently", "statement": "What a host finds in one report (one direction, one report ID) of a compiled descriptor, that is the fields in order with all their attributes and the padding between them, depends only on the elements of that direction inside Reports of that ID: other reports, other directions and the collections around can be added, removed or changed freely. Elements appended to the report leave its earlier part as it was.", "quantifier": "every two descriptors that compile, with or without optimization, and every report in which they have the same elements", "why_tests_cant": "pairs of unbounded trees; the state of the compiler, of the optimizer and of the host is carried from one report into the next", "anchors": ["hrdc/descriptor/streamer.py: Streamer", "hrdc/descriptor/descriptor.py: Report", "hrdc/stream/optimizer"]}
{"id": "C80", "title": "Hosts read what devices put in reports", "statement": "A device that fills a report as the descriptor tree says (the elements of the report in order, each value at its alignment with its fields one after the other, lowest bit first, in two's complement, anything in the padding) is understood by a host that has only the compiled descriptor: it reads every number with the usage of its value, the usage chosen in every named array, nothing else, and takes exactly the bits filled.", "quantifier": "every descriptor that compiles, with or without optimization, every report, all numbers the fields have room for, all contents of padding", "why_tests_cant": "all contents of all reports of all trees; errors in size, sign, order, padding or usage only show in the data exchanged", "anchors": ["hrdc/descriptor/streamer.py: Streamer", "hrdc/descriptor/descriptor.py: Value, Align, Padding", "doc/descriptor.rst"]}
{"id": "C81", "title": "Optimizing keeps the fields", "statement": "Whatever an optimized descriptor says about usages, strings, designators and physical bounds, it has the collections of the original, nested in the same way and of the same kinds, and in them the same fields and padding bits in the same order, each with its direction, report ID, flags, size, logical bounds, unit and unit exponent; so every field stays at its place in its report and is decoded to the same number.", "quantifier": "every descriptor, read by the converter from any format or compiled, every selection of optimizers, hosts resolving pages either way", "why_tests_cant": "unbounded streams and all selections of passes; holds where the names of fields are not kept (C25, C30), so no comparison of whole meanings shows it", "anchors": ["hrdc/stream/optimizer", "hrdc/converter.py", "hrdc/descriptor/compiler.py"]}
{"id": "C82", "title": "Recompiling keeps numbers at their places", "statement": "Decompile a descriptor and compile the result: whatever happens to usages, strings, units and collections, the fields and padding bits of every report are the same, in the same order, each field with its size and logical bounds. So a host that has the recompiled descriptor reads the same numbers in every report.", "quantifier": "every descriptor that is decompiled and compiled again, read from any format, every content of every report, with or without optimization", "why_tests_cant": "unbounded streams and all contents of reports; holds where names are lost (C39, C42), so no comparison of whole meanings shows it", "anchors": ["hrdc/descriptor/extractor.py: Extractor", "hrdc/descriptor/streamer.py: Streamer", "hrdc/stream/optimizer"]}
{"id": "C83", "title": "Documents can be put together", "statement": "Put a document behind one that can be read: bytes behind bytes, hex text behind hex text with a character between them that belongs to no word, C code behind C code on a new line with a comma between them (none is needed if the first ends in one). Together they are read as the items of the first, then those of the second, with the same classes and values; and, if the second begins with a Usage Page, the same names. A second document that cannot be read makes the whole fail with its exception, after the items before it, except that C code with malformed fields fails before the first item. Converting both together without optimization to binary or hex gives the two conversions one behind the other, and so does converting to C code if the first closes its collections and the second begins with a Usage Page. Documents written by the tool can be concatenated as they are in every format.", "quantifier": "every two documents of one format of which the first can be read; for documents written as C code, every two streams of items whose names have one line", "why_tests_cant": "all pairs of documents; the reader keeps a page, comments and half items across the seam", "anchors": ["hrdc/stream/parser/base.py: Parser.blobParse", "hrdc/stream/parser/hex.py: Hex.read", "hrdc/stream/parser/code.py: Code.read", "hrdc/converter.py: _main"]}
{"id": "C84", "title": "Edits stay where they are", "statement": "Replace members anywhere in a descriptor that compiles (inside any Reports, Collections and lists, by any number of members, none included) by others, neither containing a Report. If in every direction the new members end at the bit where the old ones ended, modulo a multiple of the alignments of what follows, then the items compiled from everything before and everything behind do not change, and the items of the new members are those they compile to alone behind padding of as many bits; if compiling them alone raises an exception, the whole raises it. The bytes written without optimization before and behind do not change either; with the default optimization, the fields a host finds before and behind (with sizes, flags, logical bounds and reports) do not change. So members of the same directions, alignments and sizes can always take each other's place, and anything can be put where nothing aligned follows. Members ending at another bit, or with a Report among them, can change what is behind.", "quantifier": "every descriptor that compiles, every place in it inside a Report with an ID up to 255, all members without Reports on both sides, every usage registry", "why_tests_cant": "all descriptors, places and edits; the compiler carries report ID and bit counts across elements", "anchors": ["hrdc/descriptor/streamer.py: Streamer.enter, element, leave", "hrdc/descriptor/descriptor.py: Hierarchical.accept", "hrdc/descriptor/compiler.py: compile_main"]}
{"id": "C85", "title": "Documents can be decompiled together", "statement": "Put a document behind one that ends where its last collection is closed. If every global set in the first is set in the second before an item refers to it, decompiling both gives the members of the first tree, then those of the second, each as it is decompiled alone; if the first ends in the report with which the second begins, these are one Report. What the tree describes is what each describes, one after the other, and the script for both is the one of the trees put together (if the second begins with a Usage Page, so that names are read alike). If one document is refused both are, with its exception. In the same way descriptors merged in one TopLevel (C76) are decompiled to the trees that each gives. A document that relies on what a host starts with (as the optimizer writes) takes over globals of the first, and behind a collection that is left open it ends up inside it.", "quantifier": "every two item streams, every two documents of one format put together as in C83, every two descriptors that can be merged, every usage registry", "why_tests_cant": "all pairs of documents; the decompiler keeps globals, locals, open collections, a pending named array and the current report across the seam", "anchors": ["hrdc/descriptor/extractor.py: Extractor._append, handleDataItem, leave, ended, reportInsert", "hrdc/stream/parser/base.py: Parser.blobParse"]}
{"id": "C86", "title": "Optimizing can be left for later", "statement": "Compile a descriptor without optimizing (-N), keep the document, convert it to any formats on the way, and optimize it with the converter (-O) at the end: the binary or hexadecimal document is byte for byte the one that compiling with optimization writes at once, and where that raises the converter raises the same. Code obtained this way is written exactly when compiling at once writes code, and the descriptor passes a test (descriptor_expected) against it. The same holds in a chain of streams with any selection of passes. The names of the script, which the document does not keep, and the usages known to the program that converts make no difference. When the document kept is code the names must have no line break; a name with one can add items.", "quantifier": "every descriptor that is written without optimizing, in binary or hexadecimal, or as code when the usages known and the names in the tree have no line break; every list of formats in between; every pair of usage registries (with one-line names where code is written)", "why_tests_cant": "all descriptors and all chains of formats; the passes get items that carry names and truth values of the script in one case, and items rebuilt from bytes in the other", "anchors": ["hrdc/descriptor/compiler.py: compile_main", "hrdc/converter.py: main", "hrdc/stream/optimizer.py: all passes", "hrdc/stream/parser/base.py: Parser.blobParse"]}
{"id": "C87", "title": "How large decompiled descriptors are", "statement": "The descriptor that a document is decompiled to has no more elements (values, paddings) than the document describes: one for each data item that is constant or buffered, and for any other data item as many as the Report Count in force. It has exactly that many when the document ends as many collections as it begins and an End Collection is its last main item, and never more collections than the document begins. The size is bounded by the counts, not by the length of the document: fifteen bytes are decompiled to any number of elements below 2^32. Where no Report Count is larger than k (k at least 1), a binary document is decompiled to at most k elements for each data item, and so for each byte. The script written for a descriptor has at least one line for every element and two for every collection.", "quantifier": "every document in binary, hexadecimal or code that is decompiled, every list of items whose usages are known by kind, every usage registry; every descriptor a script is written for; every count of four bytes", "why_tests_cant": "all documents and counts; large counts cannot be run at all", "anchors": ["hrdc/descriptor/extractor.py: Extractor.handleDataItem", "hrdc/descriptor/extractor.py: Extractor._append", "hrdc/descriptor/extractor.py: main", "hrdc/descriptor/dumper.py: Dumper"]}
{"id": "C88", "title": "How large compiled descriptors are", "statement": "The number of items a descriptor is compiled to is bounded by its elements alone, whatever counts, sizes and bounds they have: a value takes between 3 items and 17 and the usages of its named array (padding before it included), an alignment or padding up to 3, a report up to 1, a collection 3. Both bounds are reached. The binary document has between one and five bytes for each item without optimization, and at most seven for each of the largest number of items with it.", "quantifier": "every descriptor that is compiled, every usage registry; for bytes, every one written in binary; for the optimized document, every one that is also written without optimization", "why_tests_cant": "all trees and numbers", "anchors": ["hrdc/descriptor/streamer.py: Streamer.element", "hrdc/descriptor/streamer.py: Streamer.enter", "hrdc/descriptor/compiler.py: compile_main", "hrdc/stream/item.py: Item.bytes"]}
