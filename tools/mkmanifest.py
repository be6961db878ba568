#!/usr/bin/env python3
"""Regenerate MANIFEST.json from the property theorems in lean/Verif/Props and
the notes in tools/notes.json."""
import json, os, re
root = os.path.dirname(os.path.dirname(os.path.abspath(__file__)))
props = [json.loads(l) for l in open(root + '/properties.jsonl') if l.strip()]
notes = json.load(open(root + '/tools/notes.json'))
thms = {}
pdir = root + '/lean/Verif/Props'
for f in sorted(os.listdir(pdir)):
    ns = []
    for line in open(os.path.join(pdir, f)):
        if m := re.match(r'namespace (\S+)', line): ns.append(m[1])
        elif (m := re.match(r'end (\S+)', line)) and ns and ns[-1] == m[1]: ns.pop()
        elif m := re.match(r'theorem ((C\d+)_\S+)', line):
            thms.setdefault(m[2], []).append('.'.join(ns + [m[1]]))
claims = []
for p in props:
    i = p['id']; t = thms.get(i, [])
    n = notes.get(i, {})
    st = n.get('status') or ('partial' if any(x.endswith(('_partial', '_violated')) for x in t) else 'proved')
    if not t and st != 'not_applicable':
        print('no theorem yet:', i); continue
    claims.append({'property': i, 'status': st, 'theorems': t, 'note': n.get('note', '')})
json.dump({'claims': claims}, open(root + '/MANIFEST.json', 'w'), indent=1, ensure_ascii=False)
print(len(claims), 'claims')
