#!/usr/bin/env python3
"""Collect the property theorems of lean/Verif/Props into MANIFEST.json.

Every theorem named C<nn>_... in a Props file is a claim about property C<nn>.
Notes come from tools/notes.json.
"""
import json
import os
import re

root = os.path.dirname(os.path.dirname(os.path.abspath(__file__)))
props = os.path.join(root, 'lean/Verif/Props')
notes = json.load(open(os.path.join(root, 'tools/notes.json')))
theorems = {}
for fn in sorted(os.listdir(props)):
    ns = []
    for line in open(os.path.join(props, fn)):
        m = re.match(r'namespace (\S+)', line)
        if m:
            ns.append(m.group(1))
        m = re.match(r'end (\S+)', line)
        if m and ns and ns[-1] == m.group(1):
            ns.pop()
        m = re.match(r'(?:theorem|lemma) (C\d{2,3}_\S+)', line)
        if m:
            theorems.setdefault(m.group(1).split('_')[0], []).append('.'.join(ns + [m.group(1)]))
claims = []
for line in open(os.path.join(root, 'properties.jsonl')):
    pid = json.loads(line)['id']
    if pid not in theorems:
        print('no theorem for', pid)
        continue
    ths = theorems[pid]
    short = [t.split('.')[-1] for t in ths]
    partial = any(t.endswith('_partial') or '_negation' in t for t in short)
    if pid not in notes:
        print('no note for', pid)
    claims.append({'property': pid, 'status': 'partial' if partial else 'proved',
                   'theorems': ths, 'note': notes.get(pid, '')})
with open(os.path.join(root, 'MANIFEST.json'), 'w') as f:
    json.dump({'claims': claims}, f, indent=1)
    f.write('\n')
print(sum(c['status'] == 'proved' for c in claims), 'proved,',
      sum(c['status'] == 'partial' for c in claims), 'partial')
