"""Writes the section 'Results' of DESIGN.md from MANIFEST.json, properties.jsonl and `#print axioms`."""
import json, os, re, subprocess, tempfile
root = '/verif'
claims = json.load(open(f'{root}/MANIFEST.json'))['claims']
titles = {}
for l in open(f'{root}/properties.jsonl'):
    d = json.loads(l)
    titles[d['id']] = d['title']
names = [t for c in claims for t in c['theorems']]
with tempfile.NamedTemporaryFile('w', suffix='.lean', delete=False) as f:
    f.write('import Verif\n' + ''.join(f'#print axioms {t}\n' for t in names))
out = subprocess.run(['lake', 'env', 'lean', f.name], cwd=f'{root}/lean', capture_output=True, text=True).stdout
os.unlink(f.name)
out = re.sub(r'\s+', ' ', out)
axioms = {}
for t in names:
    m = re.search("'" + re.escape(t) + r"' (does not depend on any axioms|depends on axioms: \[([^\]]*)\])", out)
    axioms[t] = sorted(m.group(2).split(', ')) if m and m.group(2) else [] if m else None
assert all(a is not None for a in axioms.values()), [t for t in names if axioms[t] is None]
short = {'propext': 'p', 'Classical.choice': 'c', 'Quot.sound': 'q'}
assert set(a for l in axioms.values() for a in l) <= set(short)
lines = []
for c in claims:
    lines.append(f"### {c['property']} {titles[c['property']]}: {c['status']}")
    lines.append('')
    if c['note']:
        lines.append(c['note'])
        lines.append('')
    for t in c['theorems']:
        a = ''.join(short[x] for x in axioms[t])
        lines.append(f"* `{t}` [{a or '-'}]")
    lines.append('')
p = f'{root}/DESIGN.md'
s = open(p).read()
b, e = '<!-- results -->\n', '<!-- end results -->\n'
i, j = s.index(b) + len(b), s.index(e)
open(p, 'w').write(s[:i] + '\n' + '\n'.join(lines) + s[j:])
