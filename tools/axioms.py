#!/usr/bin/env python3
"""Write AXIOMS.md: the axioms that each property theorem of MANIFEST.json depends on, as reported by Lean.

lean/ has to be built. Fails if a theorem depends on another axiom than propext, Classical.choice and Quot.sound.
"""
import json
import os
import re
import subprocess
import sys
import tempfile

root = os.path.dirname(os.path.dirname(os.path.abspath(__file__)))
allowed = {'propext', 'Classical.choice', 'Quot.sound'}
claims = json.load(open(os.path.join(root, 'MANIFEST.json')))['claims']
names = [t for c in claims for t in c['theorems']]
with tempfile.TemporaryDirectory() as tmp:
    path = os.path.join(tmp, 'Axioms.lean')
    with open(path, 'w') as f:
        f.write('import Verif\n' + ''.join('#print axioms {}\n'.format(n) for n in names))
    out = subprocess.run(['lake', 'env', 'lean', path], cwd=os.path.join(root, 'lean'), stdout=subprocess.PIPE, text=True).stdout
out = re.sub(r'\s+', ' ', out)
found = {}
for m in re.finditer(r"'([^' ]+)' (?:depends on axioms: \[([^\]]*)\]|does not depend on any axioms)", out):
    found[m.group(1)] = [a.strip() for a in (m.group(2) or '').split(',') if a.strip()]
missing = [n for n in names if n not in found]
bad = {n: a for n, a in found.items() if not set(a) <= allowed}
lines = ['# Axioms of the property theorems', '',
         'Written by `tools/axioms.py` from the output of `#print axioms`. p: `propext`, c: `Classical.choice`, q: `Quot.sound`, -: none.', '']
short = {'propext': 'p', 'Classical.choice': 'c', 'Quot.sound': 'q'}
for c in claims:
    lines.append('* ' + c['property'] + ': ' + ', '.join(
        '`{}` {}'.format(t.replace('Verif.', '', 1), ''.join(short.get(a, a) for a in sorted(found.get(t, ['?']))) or '-') for t in c['theorems']))
with open(os.path.join(root, 'AXIOMS.md'), 'w') as f:
    f.write('\n'.join(lines) + '\n')
if missing or bad:
    sys.exit('missing: {} other axioms: {}'.format(missing, bad))
