#!/usr/bin/env python3
"""Writes /verif/MANIFEST.json: one entry per property; theorems are collected from lean/Verif/Props by prefix."""
import json, re, glob, os
root = os.path.join(os.path.dirname(os.path.abspath(__file__)), '..')
# property -> (status, note)
exec(open(os.path.join(root, 'tools', 'status.py')).read())
thms = {}
for f in sorted(glob.glob(os.path.join(root, 'lean/Verif/Props/*.lean'))):
    for m in re.finditer(r'^theorem (C(\d\d\d?)_\w+)', open(f).read(), re.M):
        thms.setdefault('C' + m.group(2), []).append('Verif.' + m.group(1))
props = [json.loads(l)['id'] for l in open(os.path.join(root, 'properties.jsonl'))]
claims = []
for p in props:
    if p in STATUS:
        st, note = STATUS[p]
        claims.append({"property": p, "status": st, "theorems": thms.get(p, []), "note": note})
for p in thms:
    assert p in STATUS, p + ' has theorems but no status'
json.dump({"claims": claims}, open(os.path.join(root, 'MANIFEST.json'), 'w'), indent=1)
print(len(claims), 'claims;', sum(c['status'] == 'proved' for c in claims), 'proved;', [p for p in props if p not in STATUS])
