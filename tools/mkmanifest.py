#!/usr/bin/env python3
"""Regenerates MANIFEST.json, lean/Verif.lean and lean/Verif/Axioms.lean from tools/claims.txt.

claims.txt: one line per property:  id | status | theorem names (space separated) | note
"""
import json, os, re
root = os.path.dirname(os.path.dirname(os.path.abspath(__file__)))
claims = []
for line in open(os.path.join(root, 'tools/claims.txt')):
    line = line.strip()
    if not line or line.startswith('#'):
        continue
    pid, status, thms, note = [x.strip() for x in line.split('|', 3)]
    claims.append({'property': pid, 'status': status,
                   'theorems': ['Rypt.Props.' + t for t in thms.split()], 'note': note})
claims.sort(key=lambda c: c['property'])
with open(os.path.join(root, 'MANIFEST.json'), 'w') as f:
    f.write('{"claims": [\n' + ',\n'.join(json.dumps(c, ensure_ascii=False) for c in claims) + '\n]}\n')
mods = []
base = os.path.join(root, 'lean', 'Verif')
for sub in ['Model', 'Spec', 'Proofs', 'Props']:
    for fn in sorted(os.listdir(os.path.join(base, sub))):
        if fn.endswith('.lean'):
            mods.append('Verif.%s.%s' % (sub, fn[:-5]))
with open(os.path.join(root, 'lean', 'Verif.lean'), 'w') as f:
    f.write(''.join('import %s\n' % m for m in mods) + 'import Verif.Axioms\n')
with open(os.path.join(base, 'Axioms.lean'), 'w') as f:
    f.write(''.join('import %s\n' % m for m in mods if '.Props.' in m))
    f.write('\n/-! The axioms each property theorem depends on (printed when this file is compiled). -/\n\n')
    seen = set()
    for c in claims:
        for t in c['theorems']:
            if t not in seen:
                seen.add(t)
                f.write('#print axioms %s\n' % t)
