#!/usr/bin/env python3
"""Regenerate lean/Verif.lean: import every module under lean/Verif."""
import os
root = '/verif/lean'
mods = []
for d, _, fs in os.walk(root + '/Verif'):
    for f in fs:
        if f.endswith('.lean'):
            p = os.path.relpath(os.path.join(d, f), root)[:-5]
            mods.append(p.replace('/', '.'))
order = {'Py': 0, 'Spec': 1, 'Model': 2, 'Proofs': 3, 'Props': 4}
mods.sort(key=lambda m: (order[m.split('.')[1]], m))
open(root + '/Verif.lean', 'w').write(''.join('import %s\n' % m for m in mods))
