#!/usr/bin/env python3
"""Regenerates MANIFEST.json from the theorem names `Cnn_*` in lean/Verif/Props and scripts/notes.json."""
import glob, json, os, re
root = os.path.dirname(os.path.dirname(os.path.abspath(__file__)))
thms = {}
for f in sorted(glob.glob(root + '/lean/Verif/Props/*.lean')):
    for m in re.finditer(r'^theorem (C(\d\d)_\w+)', open(f).read(), re.M):
        thms.setdefault('C' + m.group(2), []).append('Fbx.' + m.group(1))
notes = json.load(open(root + '/scripts/notes.json'))
claims = []
for l in open(root + '/properties.jsonl'):
    c = json.loads(l)['id']
    n = notes.get(c, {})
    t = thms.get(c, [])
    status = n.get('status') or ('proved' if t else 'partial')
    claims.append({'property': c, 'status': status, 'theorems': t, 'note': n.get('note', '' if t else 'not proved yet')})
json.dump({'claims': claims}, open(root + '/MANIFEST.json', 'w'), indent=1)
print(sum(c['status'] == 'proved' and bool(c['theorems']) for c in claims), 'proved,',
      [c['property'] for c in claims if not c['theorems']], 'without theorem')
