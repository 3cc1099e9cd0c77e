#!/usr/bin/env python3
"""Write MANIFEST.json. Theorems are collected from lean/Verif/Props by their C-number; status and notes from NOTES."""
import json, re, glob, os
root = os.path.dirname(os.path.dirname(os.path.abspath(__file__)))
exec(open(os.path.join(root, 'tools', 'manifest_notes.py')).read())
thms = {}
for f in sorted(glob.glob(os.path.join(root, 'lean/Verif/Props/*.lean'))):
    ns = []
    for line in open(f):
        m = re.match(r'namespace (\S+)', line)
        if m: ns.append(m.group(1))
        m = re.match(r'end (\S+)', line)
        if m and ns and ns[-1] == m.group(1): ns.pop()
        m = re.match(r'(?:@\[[^\]]*\] )?theorem ((C\d+)_\S+)', line)
        if m: thms.setdefault(m.group(2), []).append('.'.join(ns + [m.group(1)]))
claims = []
for line in open(os.path.join(root, 'properties.jsonl')):
    p = json.loads(line)['id']
    t = thms.get(p, [])
    if not t: continue
    status, note = NOTES.get(p, (None, ''))
    if status is None:
        status = 'partial' if any(x.endswith('_partial') for x in t) else 'proved'
    claims.append({'property': p, 'status': status, 'theorems': t, 'note': note})
json.dump({'claims': claims}, open(os.path.join(root, 'MANIFEST.json'), 'w'), indent=1)
print(len(claims), 'claims', sum(len(c['theorems']) for c in claims), 'theorems')
