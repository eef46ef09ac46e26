#!/usr/bin/env python3
"""Regenerates MANIFEST.json and lean/Verif/Axioms.lean from tools/claims.txt.

claims.txt has one block per property:
  C01 proved
  theorem_a theorem_b
  note text (one line)
separated by empty lines.
"""
import json, os
root = os.path.dirname(os.path.dirname(os.path.abspath(__file__)))
claims = []
for block in open(os.path.join(root, 'tools', 'claims.txt')).read().strip().split('\n\n'):
    lines = block.split('\n')
    pid, status = lines[0].split()
    thms = lines[1].split()
    if thms == ['-']: thms = []
    note = ' '.join(lines[2:])
    claims.append({'property': pid, 'status': status, 'theorems': ['Verif.' + t for t in thms], 'note': note})
json.dump({'claims': claims}, open(os.path.join(root, 'MANIFEST.json'), 'w'), indent=1)
with open(os.path.join(root, 'lean', 'Verif', 'Axioms.lean'), 'w') as f:
    mods = sorted(m[:-5] for m in os.listdir(os.path.join(root, 'lean', 'Verif', 'Props')) if m.endswith('.lean'))
    for m in mods: f.write(f'import Verif.Props.{m}\n')
    f.write('\n/-! Axioms of every property theorem (generated by tools/manifest.py). -/\n\n')
    for c in claims:
        for t in c['theorems']: f.write(f'#print axioms {t}\n')
with open(os.path.join(root, 'lean', 'Verif.lean'), 'w') as f:
    for m in mods: f.write(f'import Verif.Props.{m}\n')
    f.write('import Verif.Axioms\n')
