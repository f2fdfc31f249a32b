#!/usr/bin/env python3
"""Generates MANIFEST.json and lean/Verif/Audit.lean from the table below and the theorem names
found in lean/Verif/Props."""
import re, json, glob, os
root = os.path.dirname(os.path.dirname(os.path.abspath(__file__)))
names = {}
mods = []
for f in sorted(glob.glob(root + '/lean/Verif/Props/*.lean')):
    mods.append('Verif.Props.' + os.path.basename(f)[:-5])
    for m in re.finditer(r'^theorem\s+(C\d\d\w*)', open(f).read(), re.M):
        for k in re.match(r'(?:C\d\d_)+', m.group(1) + '_').group(0)[:-1].split('_'):
            names.setdefault(k, []).append('Verif.Props.' + m.group(1))
notes = json.load(open(root + '/tools/notes.json'))
claims = []
for i in [json.loads(l)['id'] for l in open(root + '/properties.jsonl')]:
    ths = names.get(i, [])
    if not ths:
        n = notes.get(i)
        if n and n.get('status') == 'not_applicable':
            claims.append({'property': i, 'status': 'not_applicable', 'theorems': [], 'note': n['note']})
        continue
    st = notes.get(i, {}).get('status')
    if not st:
        st = 'partial' if any(t.endswith('_partial') for t in ths) else 'proved'
    claims.append({'property': i, 'status': st, 'theorems': ths, 'note': notes.get(i, {}).get('note', '')})
with open(root + '/MANIFEST.json', 'w') as o:
    o.write('{"claims": [\n' + ',\n'.join(' ' + json.dumps(c) for c in claims) + '\n]}\n')
with open(root + '/lean/Verif/Audit.lean', 'w') as o:
    o.write(''.join(f'import {m}\n' for m in mods))
    o.write('/-\nGenerated by tools/manifest.py: prints the axioms every property theorem depends on.\n-/\n')
    for t in dict.fromkeys(t for c in claims for t in c['theorems']):
            o.write(f'#print axioms {t}\n')
with open(root + '/lean/Verif.lean', 'w') as o:
    o.write(''.join(f'import {m}\n' for m in mods) + 'import Verif.Audit\n')
print({c['property']: c['status'] for c in claims})
