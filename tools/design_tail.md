
## Trusted base

- Lean 4.33.0 and its kernel.  No axiom, `sorry`, `native_decide` or `bv_decide` is used.
- Axioms, from `#print axioms` on every theorem of the manifest: at most `propext`, `Classical.choice` and
  `Quot.sound`.
  - none: `C55_misnested_not_reported`.
  - `propext` only: `C18_push_pop_breaks`, `C21_push_pop_breaks`, `C21_reset_before_collection_breaks`, `C21_return_to_logical_breaks`, `C24_split_designators_break`, `C28_streaming`, `C53_lt_partial`, `C54_pop_returns_none`, `C60_arithmetic`, `C60_int_left_breaks`, `C72_plain`, `C73_two_break`.
  - `Quot.sound`, `propext`: `C17_comparer_exact`, `C18_repeats_noPushPop`, `C20_constant`, `C21_exact`, `C21_exact_all`, `C21_iff`, `C21_iff_all`, `C40_grouping`, `C49_nibble_range`, `C49_unit_packing`, `C52_item_eq`, `C54_container_partial`, `C55_close_warns_partial`, `C68_designator_uniq`, `C68_physical_merge`, `C71_hex`, `C78_composable`.
  - all three: the other 450 theorems.
- The reading of `/repo` as Lean definitions.  The code was not run: there is no Python environment for
  it here, so the model has been compared with the code by reading only, and by the repository's own tests
  evaluated on the model.
- The specifications, which were written by the same hand as the model.
- `int(math.log(m, 2))` is taken as the floor of the logarithm.  Floating point gives the same for all powers
  of two and for 2^k - 1 with k < 48, where it was tried; beyond, values are refused in either case.  This was
  checked by running plain Python on those values, not proved.
- Python runs with assertions.

## Modelled

Everything under `hrdc/`: items, parsers, formatters, comparer, optimizer passes, converter, descriptor
elements, streamer, compiler, extractor, decompiler, dumper, usages and the whole usage table, named
constants.  Scripts printed by the dumper are evaluated by `Spec/Script.lean`, a reader for the part of Python
they use.

## Not modelled

- Command-line parsing other than the choice of formats, files and `-O`/`-N`; buffering; characters that cannot
  be encoded on output.  The decoder of the locale is a parameter.
- Messages printed, except the warning of the code writer and those of the decompiler (of the lines it prints
  with an exception only the first, the others are a parameter).
- Operands that are neither ints nor constants.
- Items holding a named constant where the optimizer or extractor does arithmetic with it.
- `setup.py`, `doc` and `examples`.

## Defects found

Each is a theorem of the table unless marked (read).

- Binary files named on the command line can be neither read nor written (C63).
- MainMerge merges arrays, misplaces strings, ignores Push/Pop, mishandles data items at the end (C20).
- GlobalMerge and UsagePage ignore Push/Pop (C18, C23); PhysicalMerge drops bounds still needed (C21).
- UsagePage gives 16-bit usages page 0 (C23), so `converter -O` breaks usual descriptors (C25).
- Optimized output can be longer (C58) and can repeat a page (C57).
- The streamer counts one field of values with a count (C32, C33), does not leave reports (C35), does not
  write Report(0) (C32), writes named arrays with a usage as Variable fields (C45), takes negative kinds (C05).
- The extractor drops empty collections (C43), strings of collections, all but one range, Push/Pop (C39), and
  fails on some balanced streams (C38).
- The dumper prints `Unit.Velocity` (C50), four usage names and kinds that are not attributes (C44, C51), and
  loses flags above bit 8 (C44).
- `desktop.SystemDisplayRotationLockButton` is on a wrong page, Button(65536) is Ordinal(0) (C51).
- The player LEDs do not have the numbers of HID, events of sensors are declared as arrays (C77); Unit.Second,
  Unit.Ampere and Unit.Candela have no system and so are no units (C78).
- `pop()` of containers returns None (C54); `<` of items is no order (C53); `1 + constant` raises (C60).
- `r[-1]` of a usage range is outside of it (C48).
- The code reader loses bytes after `//` in a block comment (C14).
- Merged report counts may pass 32 bits and then do not encode (C64).
- Optimizing an optimized descriptor moves its usages to page 0 (C68).
- Messages of the decompiler get into the script on standard output (C67).
- A usage 0 given as a number is no usage, as a constant it is one (C70).
