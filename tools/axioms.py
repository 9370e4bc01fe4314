"""Refresh the axiom lists of design_tail.md from `#print axioms` on every theorem of the manifest."""
import json, re, subprocess, tempfile
d = '/verif/'
names = [t for c in json.load(open(d + 'MANIFEST.json'))['claims'] for t in c['theorems']]
with tempfile.NamedTemporaryFile('w', suffix='.lean', delete=False) as f:
    f.write('import Verif\n' + ''.join('#print axioms %s\n' % (n if n.startswith('Hrdc.') else 'Hrdc.' + n) for n in names))
out = subprocess.run(['lake', 'env', 'lean', f.name], cwd=d + 'lean', capture_output=True, text=True).stdout
ax = {}
for m in re.finditer(r"'Hrdc\.(\w+)' (does not depend on any axioms|depends on axioms: \[([^\]]*)\])", out):
    ax[m.group(1)] = tuple(sorted(x.strip() for x in (m.group(3) or '').split(',') if x.strip()))
short = [n.replace('Hrdc.', '') for n in names]
missing = [n for n in short if n not in ax]
allowed = {'propext', 'Classical.choice', 'Quot.sound'}
assert not missing, missing
assert all(set(v) <= allowed for v in ax.values()), [k for k, v in ax.items() if not set(v) <= allowed]
groups = {}
for n in short:
    groups.setdefault(ax[n], []).append(n)
full = tuple(sorted(allowed))
lines = []
for g in sorted(groups, key=len):
    if g != full:
        lines.append('  - %s: %s.' % (', '.join('`%s`' % a for a in g) + (' only' if len(g) == 1 else '') if g else 'none', ', '.join('`%s`' % n for n in groups[g])))
lines.append('  - all three: the other %d theorems.' % len(groups.get(full, [])))
p = d + 'tools/design_tail.md'
s = open(p).read().split('\n')
a = next(i for i, l in enumerate(s) if 'from `#print axioms`' in l)
b = a + 1
while not s[b].startswith('  - '): b += 1
e = b
while s[e].startswith('  - '): e += 1
s[b:e] = lines
open(p, 'w').write('\n'.join(s))
print(len(names), {g: len(v) for g, v in groups.items()})
