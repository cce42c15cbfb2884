#!/usr/bin/env python3
"""Append properties and notes. Input on stdin: {"props": [...], "notes": {...}}; a property already listed is replaced."""
import json, os, sys
root = os.path.dirname(os.path.dirname(os.path.abspath(__file__)))
d = json.load(sys.stdin)
pp = os.path.join(root, 'properties.jsonl')
props = [json.loads(l) for l in open(pp) if l.strip()]
for p in d.get('props', []):
    assert set(p) == {'id', 'title', 'statement', 'quantifier', 'why_tests_cant', 'anchors'}, p['id']
    props = [q for q in props if q['id'] != p['id']] + [p]
props.sort(key=lambda p: int(p['id'][1:]))
open(pp, 'w').write(''.join(json.dumps(p, ensure_ascii=False) + '\n' for p in props))
np = os.path.join(root, 'tools', 'notes.json')
notes = json.load(open(np))
notes.update(d.get('notes', {}))
json.dump(notes, open(np, 'w'), indent=1)
