#!/usr/bin/env python3
"""Write AXIOMS.md: the axioms every theorem of MANIFEST.json depends on, as printed
by Lean (run after `lake build`)."""
import json, os, re, subprocess, tempfile
root = os.path.dirname(os.path.dirname(os.path.abspath(__file__)))
names = [t for c in json.load(open(root + '/MANIFEST.json'))['claims'] for t in c['theorems']]
with tempfile.NamedTemporaryFile('w', suffix='.lean', delete=False) as f:
    f.write('import Verif\n' + ''.join(f'#print axioms {t}\n' for t in names))
out = subprocess.run(['lake', 'env', 'lean', f.name], cwd=root + '/lean', capture_output=True, text=True).stdout
os.unlink(f.name)
res = {}
for m in re.finditer(r"'(\S+)' (?:depends on axioms: \[([^\]]*)\]|does not depend on any axioms)", out):
    res[m[1]] = ', '.join(m[2].split()).replace(',,', ',') if m[2] else 'none'
assert all(n in res for n in names), [n for n in names if n not in res]
with open(root + '/AXIOMS.md', 'w') as f:
    f.write('# Axioms of the property theorems\n\nPrinted by `#print axioms`; written by `tools/mkaxioms.py`.\n\n| Theorem | Axioms |\n|---|---|\n')
    for n in names: f.write(f'| `{n}` | {res[n]} |\n')
allowed = {'propext', 'Classical.choice', 'Quot.sound'}
used = {a for v in res.values() if v != 'none' for a in re.split(r',\s*', v)}
assert used <= allowed, used - allowed
print(len(names), 'theorems', used)
