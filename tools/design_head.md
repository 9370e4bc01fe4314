# Formal model of nipo/hrdc in Lean 4

`properties.jsonl` lists the properties, `MANIFEST.json` the theorems and the status of each.  The table
below is written by `tools/design.py` from these and from `tools/notes.json`.

## Layout

- `lean/Verif/Model/*`: the code, function by function; every definition cites the lines of `/repo`.
- `lean/Verif/Spec/*`: independent specifications: wire format, meaning of item streams, meaning of
  descriptor trees, C and hex texts, Python scripts, names shown, legal trees, nesting.
- `lean/Verif/Proofs/*`: lemmas and invariants.
- `lean/Verif/Props/*`: the theorems `Cnn_...`, each with an example meeting its hypotheses.
- `lean/Verif/Check/RepoTests.lean`: the tests of `/repo/tests` evaluated on the model.  These are checks
  of the model on samples, not proofs.
- `lean/Verif/Check/Docs.lean`: the listings of `README.rst` and `doc/*.rst` (converted, compiled with and without
  `-N`, decompiled) reproduced character for character by the model, save the page names of the converter
  listing, which the code takes from `hrdc/usage/usage.py:25-43` (the documentation prints `desktop` and `button`).
- `lean/Verif/Check/Examples.lean`: the descriptors of `/repo/examples` and `/repo/tests` meet the conditions of
  the theorems on compiling, optimizing and decompiling.
- `seeded/LOG.jsonl`: wrong programs tried against the theorems; `tools/mutate.py` runs them. `claim` are the
  claims the edit was expected to break when it was tried, `missed` those of them with no theorem that failed, `note` why.
  An edit tried more than once has one line, with the last result; `note` tells when an earlier one missed a claim.  Names of
  theorems are the present ones, save one that is gone (C20_main_merge_meaning_long_partial).  Versions of this file up to c004067 had no `missed`: in 18 lines they replaced or left out
  claims that were missed (two of them with a remark), and they left out two attempts in which no theorem failed.

## Names and status

A theorem ending in `_partial` proves less than its property; its comment says what is missing.  Theorems
with `break`, `lost`, `longer` or `not` in the name are counterexamples, or state a defect for all inputs.
A property is `proved` only when its statement holds of the model as it stands in `properties.jsonl`.  Most
partial properties are partial because the rest is false of the code.

Some properties have a theorem that says exactly what the code does (`C29_compile_exact_partial`,
`C35_report_exact_partial`, `C06_parse_spec_partial`, `C36_fields_partial`).  They hold without condition,
but `exact` in C29, C30, C32, C33, C35 and C37 is defined in `Proofs/Exact.lean`, not in `Spec`: it follows
the streamer's own counting of bits and reports, so it is closer to the code than the other specifications.
`C29_compile_meaning_partial` compares with the independent `Spec.treeMeaning`.

## Meaning of item streams

`Spec.meaning` reads a stream as a HID host does and gives a list of events: collections entered (kind,
usage, string, designator) and left, one control per field of a data item (direction, flags, report,
size, logical range, physical range in effect, unit, exponent, choices), one event per constant bit.
Locals are dropped after each main item; the last usage, string or designator is repeated when there
are fewer than fields.  The page of a 16-bit usage is the one in force at the usage item (`atUsage`) or at
the main item (`atMain`); hosts of both sorts exist and theorems say for which they hold.  Delimiter items
are given no meaning.

