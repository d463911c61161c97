#!/usr/bin/env python3
"""Writes AXIOMS.md: the axioms each theorem of MANIFEST.json depends on."""
import json, re, subprocess, os
here = os.path.dirname(os.path.abspath(__file__))
ts = [t for c in json.load(open(here + '/MANIFEST.json'))['claims'] for t in c['theorems']]
f = '/tmp/axioms_list.lean'
open(f, 'w').write('import Verif\n' + ''.join(f'#print axioms {t}\n' for t in ts))
out = subprocess.run(['lake', 'env', 'lean', f], cwd=here + '/lean', capture_output=True, text=True).stdout
out = re.sub(r'\n +', ' ', out)
rows = re.findall(r"'(\S+)' (?:depends on axioms: \[(.*)\]|does not depend on any axioms)", out)
assert [r[0] for r in rows] == ts, 'unexpected output:\n' + out
with open(here + '/AXIOMS.md', 'w') as o:
    o.write('# Axioms each property theorem depends on\n\nOutput of `#print axioms`, collected by `axioms.py`.\n\n| Theorem | Axioms |\n|---|---|\n')
    for n, a in rows:
        o.write(f"| `{n.replace('Verif.Props.', '')}` | {a or 'none'} |\n")
allowed = {'propext', 'Classical.choice', 'Quot.sound'}
assert all(set(a.split(', ')) <= allowed for _, a in rows if a), 'unexpected axiom'
print(len(rows), 'theorems')
