#!/usr/bin/env python3
"""Writes AXIOMS.txt: the axioms every theorem of MANIFEST.json depends on (needs a finished `lake build`)."""
import json, os, re, subprocess, collections
root = os.path.dirname(os.path.dirname(os.path.abspath(__file__)))
names = [t for c in json.load(open(f'{root}/MANIFEST.json'))['claims'] for t in c['theorems']]
src = 'import Verif\n' + ''.join(f'#print axioms {n}\n' for n in names)
tmp = '/tmp/AxiomsOf.lean'
open(tmp, 'w').write(src)
out = subprocess.run(['lake', 'env', 'lean', tmp], cwd=f'{root}/lean', capture_output=True, text=True).stdout
ax = dict((m.group(1), m.group(2)) for m in re.finditer(r"'([^']+)' depends on axioms: \[([^\]]*)\]", out.replace('\n', ' ')))
for m in re.finditer(r"'([^']+)' does not depend on any axioms", out):
    ax[m.group(1)] = ''
groups = collections.defaultdict(list)
for n in names:
    groups[re.sub(r'\s+', ' ', ax[n]).strip() or 'none'].append(n)
with open(f'{root}/AXIOMS.txt', 'w') as f:
    f.write('Axioms the theorems of MANIFEST.json depend on (#print axioms; regenerate with tools/mkaxioms.py).\n')
    for k in sorted(groups):
        f.write(f'\n[{k}]\n')
        for n in groups[k]:
            f.write(f'  {n}\n')
