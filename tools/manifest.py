#!/usr/bin/env python3
"""Write MANIFEST.json from the theorem names in lean/Verif/Props and the notes below."""
import json, re, glob, os
root = os.path.dirname(os.path.dirname(os.path.abspath(__file__)))
names = {}
for f in sorted(glob.glob(root + '/lean/Verif/Props/*.lean')):
    ns = []
    for m in re.finditer(r'^(?:theorem (C\d\d_\w+)|namespace (\S+)|end (\S+))', open(f).read(), re.M):
        if m.group(2):
            ns.append(m.group(2))
        elif m.group(3):
            if ns and ns[-1] == m.group(3):
                ns.pop()
        else:
            names.setdefault(m.group(1)[:3], []).append('.'.join(ns + [m.group(1)]))
notes = json.load(open(root + '/tools/notes.json'))
claims = []
for line in open(root + '/properties.jsonl'):
    if not line.strip():
        continue
    p = json.loads(line)
    i = p['id']
    n = notes.get(i, {})
    ts = names.get(i, [])
    status = n.get('status')
    if status is None:
        status = 'partial' if any('_partial' in t or '_refuted' in t for t in ts) or not ts else 'proved'
    claims.append({'property': i, 'status': status, 'theorems': ts, 'note': n.get('note', '')})
json.dump({'claims': claims}, open(root + '/MANIFEST.json', 'w'), indent=1)
for c in claims:
    print(c['property'], c['status'], len(c['theorems']))
