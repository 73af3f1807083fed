#!/usr/bin/env python3
"""Writes MANIFEST.json from the theorem names C<nn>_* in lean/Verif/Props and the notes in tools/notes.json."""
import glob, json, os, re
root = os.path.dirname(os.path.dirname(os.path.abspath(__file__)))
thms = {}
for f in sorted(glob.glob(root + '/lean/Verif/Props/*.lean')):
    for m in re.finditer(r'^theorem (C(\d\d+)_\w+)', open(f).read(), re.M):
        thms.setdefault('C' + m.group(2), []).append('Banquet.Props.' + m.group(1))
notes = json.load(open(root + '/tools/notes.json'))
claims = []
for line in open(root + '/properties.jsonl'):
    if not line.strip():
        continue
    i = json.loads(line)['id']
    t = thms.get(i, [])
    n = notes.get(i, {})
    status = n.get('status') or ('partial' if not t or any(x.endswith('_partial') or x.endswith('_violated') for x in t) else 'proved')
    claims.append({'property': i, 'status': status, 'theorems': t, 'note': n.get('note', '' if t else 'Modelled; theorem not finished yet.')})
json.dump({'claims': claims}, open(root + '/MANIFEST.json', 'w'), indent=1)
print({s: sum(c['status'] == s for c in claims) for s in ('proved', 'partial', 'not_applicable')})
