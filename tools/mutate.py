#!/usr/bin/env python3
"""Try wrong programs: apply one edit at a time to a scratch copy of lean/ and see which theorems fail.

usage: mutate.py SCRATCH MUTATIONS.json RESULT.jsonl

SCRATCH is a built copy of lean/ outside the repository. MUTATIONS.json is a list of objects with the keys
claim, file, definition, old, new and edit. Failing proofs are skipped
(in the scratch copy) until everything builds. One line with the outcome is appended to RESULT.jsonl per object:
the declarations that failed, and the property theorems that rest on a skipped proof (null if this is not known).
"""
import json
import os
import re
import subprocess
import sys

DECL = re.compile(r'^(?:omit .*? in\s+)?(?:private |protected |noncomputable )*(theorem|def|example|instance|inductive|structure|abbrev|lemma)\b\s*([^\s:({\[]*)')


def decls(path):
    """List of (first line, kind, name, text) of a file."""
    res = []
    for n, line in enumerate(open(path), 1):
        m = DECL.match(line)
        if m:
            res.append([n, m.group(1), m.group(2), ''])
        if res:
            res[-1][3] += line
    return res


def skip(path, starts):
    """Leave out the proofs of the declarations that begin at the given lines (scratch copy only)."""
    lines = open(path).read().split('\n')
    for n in sorted(starts, reverse=True):
        end = n
        while end < len(lines) and (lines[end] == '' or lines[end].startswith((' ', '|', 'termination_by', 'decreasing_by'))):
            end += 1
        body = '\n'.join(lines[n - 1:end])
        body = re.sub(r':=( by)?(\s.*)?$', ':= by sorry\n', body, count=1, flags=re.S) if lines[n - 1].startswith('example') \
            else re.split(r':= by$|:=$|:= by (?!\()', body, maxsplit=1, flags=re.M)[0] + ':= by sorry\n'
        lines[n - 1:end] = body.split('\n')
    open(path, 'w').write('\n'.join(lines))

PROBE = '''import Lean
import Verif
open Lean Elab Command in
run_cmd do
  let env ← getEnv
  let mut res := #[]
  for (n, c) in env.constants.toList do
    if (`Verif).isPrefixOf n && c matches .thmInfo _ then
      let last := n.getString!
      if last.length > 4 && last.startsWith "C" && (last.toList.getD 1 'x').isDigit &&
          ((last.toList.getD 3 'x') == '_' || (last.toList.getD 4 'x') == '_') then
        if (← liftCoreM <| collectAxioms n).contains ``sorryAx then res := res.push last
  logInfo m!"PROBED"
  for r in res do IO.println s!"DEP {r}"
'''


def main():
    scratch, spec, out = sys.argv[1:4]
    def depends():
        """Property theorems that rest on a skipped proof, from the axioms recorded by Lean."""
        probe = os.path.join(scratch, 'Probe.lean')
        open(probe, 'w').write(PROBE)
        p = subprocess.run(['lake', 'env', 'lean', 'Probe.lean'], cwd=scratch, stdout=subprocess.PIPE,
                           stderr=subprocess.STDOUT, text=True, timeout=3000)
        os.remove(probe)
        assert 'PROBED' in p.stdout, p.stdout[:2000]
        return sorted(set(re.findall(r'^DEP (\S+)$', p.stdout, re.M)))

    for m in json.load(open(spec)):
        path = os.path.join(scratch, m['file'])
        text = open(path).read()
        if text.count(m['old']) != 1:
            print('NOT UNIQUE', text.count(m['old']), m)
            continue
        saved = {path: text}
        open(path, 'w').write(text.replace(m['old'], m['new']))
        failed, model, errs, built, dependent = [], [], [], None, None
        try:
            for _ in range(20):
                p = subprocess.run(['lake', 'build'], cwd=scratch, stdout=subprocess.PIPE, stderr=subprocess.STDOUT, text=True,
                                   timeout=3000)
                if built is None:
                    built = p.returncode == 0
                errs = re.findall(r'^error: (Verif/[\w/]+\.lean):(\d+):\d+: (.*)$', p.stdout, re.M)
                broken = {}
                for f, l, msg in errs:
                    ds = decls(os.path.join(scratch, f))
                    d = [x for x in ds if x[0] <= int(l)]
                    if f.startswith('Verif/Model') or not d:
                        model.append(d[-1][2] if d else '?')
                        continue
                    failed.append('example in ' + f if d[-1][1] == 'example' else d[-1][2])
                    broken.setdefault(f, set()).add(d[-1][0])
                if p.returncode == 0 or model or not broken:
                    break
                # skip the failing proofs in the scratch copy, to reach the modules behind them
                for f, starts in broken.items():
                    full = os.path.join(scratch, f)
                    saved.setdefault(full, open(full).read())
                    skip(full, starts)
            if p.returncode == 0:
                dependent = depends()
        finally:
            for f, t in saved.items():
                open(f, 'w').write(t)
        failed = list(dict.fromkeys(failed))
        res = dict(claim=m['claim'], definition=m['definition'], edit=m['edit'], failed=failed,
                   dependent=dependent, model_errors=model, built=built)
        open(out, 'a').write(json.dumps(res, ensure_ascii=False) + '\n')
        mine = [x for x in failed if x.startswith(m['claim'] + '_')]
        hit = mine or any(x.startswith(m['claim'] + '_') for x in dependent or [])
        print('FAILED' if mine else 'DEPENDENT' if hit else 'SURVIVED' if built else 'OTHER', m['claim'], m['edit'], failed[:4], model[:2], flush=True)
        if model and not hit:
            print('   ', [e for e in errs][:2])


main()
