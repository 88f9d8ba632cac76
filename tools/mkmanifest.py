#!/usr/bin/env python3
"""Write MANIFEST.json and lean/Verif.lean from the theorem names in lean/Verif/Props.

A theorem belongs to property Cnn if its name starts with `Cnn_`.  A property is `partial` if one of
its theorems ends in `_partial`; notes come from tools/notes.json.
"""
import json, os, re, glob
root = os.path.dirname(os.path.dirname(os.path.abspath(__file__)))
lean = os.path.join(root, 'lean')
props = [json.loads(l)['id'] for l in open(os.path.join(root, 'properties.jsonl'))]
notes = json.load(open(os.path.join(root, 'tools', 'notes.json')))
thms = {}
for f in sorted(glob.glob(lean + '/Verif/Props/*.lean')):
    ns = []
    for line in open(f):
        m = re.match(r'namespace (\S+)', line)
        if m: ns.append(m.group(1))
        m = re.match(r'end (\S+)', line)
        if m and ns and ns[-1] == m.group(1): ns.pop()
        m = re.match(r'theorem (C\d\d\d?)_(\S+)', line)
        if m: thms.setdefault(m.group(1), []).append('.'.join(ns + [m.group(1) + '_' + m.group(2)]))
claims = []
for p in props:
    if p not in thms: continue
    st = 'partial' if any(t.endswith('_partial') for t in thms[p]) else 'proved'
    claims.append({'property': p, 'status': st, 'theorems': thms[p], 'note': notes.get(p, '')})
json.dump({'claims': claims}, open(os.path.join(root, 'MANIFEST.json'), 'w'), indent=1, ensure_ascii=False)
order = ['Py', 'Population', 'Crossover', 'Mutation', 'Penalty', 'Fitness', 'Selection', 'NewGeneration', 'Data', 'Run']
mods = ['Verif.Model.' + m for m in order]
for d in ['Model', 'Spec', 'Proofs', 'Props']:
    for f in sorted(glob.glob(lean + '/Verif/%s/*.lean' % d)):
        m = 'Verif.%s.%s' % (d, os.path.basename(f)[:-5])
        if m not in mods: mods.append(m)
open(lean + '/Verif.lean', 'w').write('\n'.join('import ' + m for m in mods) + '\n')
print(len(claims), 'claims', sum(len(c['theorems']) for c in claims), 'theorems; missing', [p for p in props if p not in thms])
