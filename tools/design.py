"""Write DESIGN.md from design_head.md, the manifest and design_tail.md."""
import json
d = '/verif/'
props = [json.loads(l) for l in open(d + 'properties.jsonl')]
claims = {c['property']: c for c in json.load(open(d + 'MANIFEST.json'))['claims']}
how = {
 (1, 6): ('Model/Item', 'cases on the class, integer arithmetic'), (7, 10): ('Model/Parser, Formatter', 'induction on items or bytes'),
 (11, 15): ('Model/Formatter, Parser', 'induction on the text'), (16, 17): ('Model/Parser, Formatter', 'induction on the stream'),
 (18, 28): ('Model/Optimizer', 'simulation of two hosts along the stream, composition of passes'),
 (29, 37): ('Model/Descriptor, Streamer', 'induction on the tree'), (38, 43): ('Model/Extractor', 'invariant of the extractor along the stream'),
 (44, 44): ('Model/Dumper, Decompiler', 'induction on the tree against the script reader'), (45, 45): ('Model/Streamer', 'evaluation of one value'),
 (46, 49): ('Model/Usage, Item', 'arithmetic, induction on lists'), (50, 51): ('Model/Item, UsageTable', 'complete evaluation of the finite table, lemmas for Button and Ordinal'),
 (52, 55): ('Model/Item, Descriptor, Formatter', 'algebra, induction on operations or items'), (56, 56): ('Model/Parser, Item', 'invariant of the page along the stream'),
 (57, 58): ('Model/Optimizer', 'views of the stream kept by each pass'), (59, 59): ('Model/Streamer', 'induction on the tree'),
 (60, 60): ('Model/Constant', 'bits of integers'), (61, 61): ('Model/Compiler, Command', 'C12 and C17, induction on the items'), (62, 63): ('Model/Command', 'induction on items and tree'), (64, 64): ('Model/Optimizer', 'bounds of values kept by each pass'), (65, 65): ('Model/Optimizer, Command', 'simulation between two registries'), (66, 66): ('Model/Streamer, Compiler', 'exact items of a tree'), (67, 67): ('Model/DumperTrace', 'induction on the tree'), (68, 68): ('Model/Optimizer', 'invariants between a run and the run on its output'), (69, 69): ('Model/Command', 'the streamer token by token'), (70, 70): ('Model/Command, Optimizer', 'simulation between two writings of a descriptor'), (71, 71): ('Model/Formatter', 'induction on the items'), (72, 72): ('Model/Extractor', 'invariant of the extractor along the stream'), (73, 73): ('Model/Extractor, Streamer, Decompiler', 'the extractor run on what the streamer writes, token by token'), (74, 74): ('Model/Parser, Formatter, Command', 'reading depends on class and value only, induction on the bytes'), (75, 75): ('Model/Optimizer', 'invariant of each stage along the stream'), (76, 76): ('Model/Streamer', 'simulation of two compilers along the tokens'), (78, 78): ('Model/Item', 'digits of the value (C49), every named unit'), (79, 79): ('Model/Streamer, Optimizer', 'exact meaning of the tokens, filtered by report'), (80, 80): ('Model/Streamer, Optimizer', 'two-complement round trip, offsets of device and compiler in step along the elements'), (81, 81): ('Model/Optimizer', 'C27: each pass, with the group open at the end of the stream'), (82, 82): ('Model/Extractor, Streamer, Optimizer', 'C42 exactly, without names: elements in step with data items, offsets with bits'), (83, 83): ('Model/Parser, Formatter', 'the readers on appended input, induction on the first document'), (84, 84): ('Model/Streamer, Compiler', 'simulation of two streamers along the tokens'), (85, 85): ('Model/Extractor', 'simulation of the extractor alone and behind a document, item by item'), (86, 86): ('Model/Optimizer, Compiler, Converter', 'simulation of the passes on items that agree in class and value'), (87, 87): ('Model/Extractor, Dumper, Parser', 'elements in step with data items (C82), open and closed collections counted along the stream, induction on the tree'), (88, 88): ('Model/Streamer, Compiler', 'exact items of a tree, induction on the tokens; C58'), (77, 77): ('Model/UsageTable', 'every constant compared with a table of HID')}
rows = []
for p in props:
    c, n = claims[p['id']], int(p['id'][1:])
    m, h = next(v for (a, b), v in how.items() if a <= n <= b)
    rows.append('| %s | %s | %s | %s | %s | %s |' % (p['id'], p['title'], c['status'], m, h, c['note'] or '-'))
open(d + 'DESIGN.md', 'w').write(open(d + 'tools/design_head.md').read() + '## Properties\n\n| id | property | status | modelled in | proof | what is missing |\n|---|---|---|---|---|---|\n' + '\n'.join(rows) + '\n' + open(d + 'tools/design_tail.md').read())
