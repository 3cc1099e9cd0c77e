#!/usr/bin/env python3
"""Regenerate lean/Verif.lean: import every module under lean/Verif."""
import os
root = os.path.join(os.path.dirname(os.path.abspath(__file__)), '..', 'lean')
mods = []
for d in ['Model', 'Spec', 'Lemmas', 'Props']:
    for f in sorted(os.listdir(os.path.join(root, 'Verif', d))):
        if f.endswith('.lean'):
            mods.append('import Verif.%s.%s' % (d, f[:-5]))
open(os.path.join(root, 'Verif.lean'), 'w').write('\n'.join(mods) + '\n')
