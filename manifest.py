"""Writes MANIFEST.json from the theorem names in lean/Verif/Props and the notes below."""
import glob, json, os, re
root = os.path.dirname(os.path.abspath(__file__))
thms = {}
for f in sorted(glob.glob(os.path.join(root, 'lean/Verif/Props/*.lean'))):
    for m in re.finditer(r'^theorem (C\d\d)_(\w+)', open(f).read(), re.M):
        thms.setdefault(m.group(1), []).append('Verif.Props.%s_%s' % m.groups())
notes = json.load(open(os.path.join(root, 'notes.json')))
claims = []
for l in open(os.path.join(root, 'properties.jsonl')):
    p = json.loads(l)['id']
    if p in thms:
        n = notes.get(p, {})
        claims.append({'property': p, 'status': n.get('status', 'proved'), 'theorems': thms[p], 'note': n.get('note', '')})
json.dump({'claims': claims}, open(os.path.join(root, 'MANIFEST.json'), 'w'), indent=1)
print(len(claims), 'claims', sum(len(c['theorems']) for c in claims), 'theorems')
