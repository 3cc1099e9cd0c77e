#!/usr/bin/env python3
"""List the axioms every claimed theorem depends on (needs a finished `lake build`); writes AXIOMS.md."""
import json, re, subprocess, os, tempfile, sys
root = os.path.dirname(os.path.dirname(os.path.abspath(__file__)))
names = [(c['property'], t) for c in json.load(open(root + '/MANIFEST.json'))['claims'] for t in c['theorems']]
src = 'import Verif\n' + ''.join('#print axioms %s\n' % t for _, t in names)
with tempfile.NamedTemporaryFile('w', suffix='.lean', delete=False) as f:
    f.write(src)
r = subprocess.run(['lake', 'env', 'lean', f.name], cwd=root + '/lean', capture_output=True, text=True)
os.unlink(f.name)
out = r.stdout + r.stderr
got = {}
for m in re.finditer(r"'(\S+)' (does not depend on any axioms|depends on axioms: \[([^\]]*)\])", out):
    got[m.group(1)] = sorted(x.strip() for x in (m.group(3) or '').replace('\n', ' ').split(',') if x.strip())
bad = [t for _, t in names if t not in got]
allowed = {'propext', 'Classical.choice', 'Quot.sound'}
ugly = [t for t in got if not set(got[t]) <= allowed]
with open(root + '/AXIOMS.md', 'w') as f:
    f.write('# Axioms of the property theorems\n\nWritten by `tools/axioms.py` from `#print axioms`.\n\n| property | theorem | axioms |\n|---|---|---|\n')
    for p, t in names:
        f.write('| %s | %s | %s |\n' % (p, t, ', '.join(got.get(t, ['?'])) or 'none'))
print(len(names), 'theorems; missing:', bad, 'other axioms:', ugly)
sys.exit(1 if bad or ugly else 0)
