#!/usr/bin/env python3
"""Write AXIOMS.md: the axioms every theorem of MANIFEST.json depends on, as Lean prints them.
Run after `lake build`."""
import json, re, subprocess
claims = json.load(open('/verif/MANIFEST.json'))['claims']
names = [t for c in claims for t in c['theorems']]
src = 'import Verif\n' + ''.join('#print axioms %s\n' % n for n in names)
open('/tmp/axioms.lean', 'w').write(src)
out = subprocess.run(['lake', 'env', 'lean', '/tmp/axioms.lean'], cwd='/verif/lean',
                     capture_output=True, text=True).stdout
ax = {}
for m in re.finditer(r"'(\S+)' depends on axioms: \[([^\]]*)\]", out):
    ax[m.group(1)] = ', '.join(x.strip() for x in m.group(2).split(','))
for m in re.finditer(r"'(\S+)' does not depend on any axioms", out):
    ax[m.group(1)] = 'none'
with open('/verif/AXIOMS.md', 'w') as f:
    f.write('# Axioms of the property theorems\n\nPrinted by `#print axioms` (tools/axioms.py).\n\n')
    f.write('| theorem | axioms |\n|---|---|\n')
    for n in names:
        f.write('| %s | %s |\n' % (n, ax[n]))
print(len(names), 'theorems;', sorted(set(ax.values())))
