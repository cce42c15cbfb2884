#!/usr/bin/env python3
"""Rebuild MANIFEST.json and lean/Verif.lean from the theorem names in lean/Verif/Props.

A theorem named Cnn_... belongs to property Cnn. tools/notes.json holds status and note per property."""
import json, os, re
root = os.path.dirname(os.path.dirname(os.path.abspath(__file__)))
lean = os.path.join(root, 'lean')
mods = []
for d, _, fs in os.walk(os.path.join(lean, 'Verif')):
    for f in fs:
        if f.endswith('.lean'):
            rel = os.path.relpath(os.path.join(d, f), lean)
            mods.append(rel[:-5].replace('/', '.'))
mods.sort()
with open(os.path.join(lean, 'Verif.lean'), 'w') as fo:
    fo.write(''.join(f'import {m}\n' for m in mods))
names = {}
for m in mods:
    if not m.startswith('Verif.Props'):
        continue
    for line in open(os.path.join(lean, m.replace('.', '/') + '.lean')):
        g = re.match(r'theorem (C(\d\d+)_\S+)', line)
        if g:
            names.setdefault('C' + g.group(2), []).append('Verif.Props.' + g.group(1))
notes = json.load(open(os.path.join(root, 'tools', 'notes.json')))
ids = [json.loads(l)['id'] for l in open(os.path.join(root, 'properties.jsonl')) if l.strip()]
claims = []
for i in ids:
    n = notes.get(i, {})
    th = names.get(i, [])
    st = n.get('status') or ('partial' if (not th or any('_partial' in t for t in th)) else 'proved')
    claims.append({'property': i, 'status': st, 'theorems': th,
                   'note': n.get('note', '' if th else 'not modelled yet')})
json.dump({'claims': claims}, open(os.path.join(root, 'MANIFEST.json'), 'w'), indent=1)
print({s: sum(c['status'] == s for c in claims) for s in ('proved', 'partial', 'not_applicable')},
      'without theorems:', [c['property'] for c in claims if not c['theorems']])
