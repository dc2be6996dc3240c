#!/usr/bin/env python3
"""Writes lean/Verif/Audit.lean, which prints the axioms of every theorem named in MANIFEST.json."""
import json, os, re
root = os.path.dirname(os.path.dirname(os.path.abspath(__file__)))
names = []
for c in json.load(open(root + '/MANIFEST.json'))['claims']:
    for t in c['theorems']:
        if t not in names:
            names.append(t)
mods = sorted('Verif.Props.' + f[:-5] for f in os.listdir(root + '/lean/Verif/Props') if f.endswith('.lean'))
with open(root + '/lean/Verif/Audit.lean', 'w') as f:
    f.write('\n'.join('import ' + m for m in mods))
    f.write('\n\n/-! The axioms of every theorem named in MANIFEST.json.  Written by tools/audit.py. -/\n\n')
    f.write('\n'.join('#print axioms ' + n for n in names) + '\n')
