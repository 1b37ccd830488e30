#!/usr/bin/env python3
"""Write MANIFEST.json: theorems named Cnn_... in lean/Verif/Props, plus status and note per property."""
import json, re, glob, os
root = os.path.join(os.path.dirname(__file__), '..')
thms = {}
for f in sorted(glob.glob(os.path.join(root, 'lean/Verif/Props/*.lean'))):
    for m in re.finditer(r'^theorem (C(\d{2,3})_\w+)', open(f).read(), re.M):
        thms.setdefault('C' + m.group(2), []).append('Verif.' + m.group(1))
status = json.load(open(os.path.join(root, 'tools/status.json')))
ids = [json.loads(l)['id'] for l in open(os.path.join(root, 'properties.jsonl'))]
claims = []
for i in ids:
    if i in thms:
        st, note = status.get(i, ['proved', ''])
        claims.append({'property': i, 'status': st, 'theorems': thms[i], 'note': note})
json.dump({'claims': claims}, open(os.path.join(root, 'MANIFEST.json'), 'w'), indent=1, ensure_ascii=False)
print(len(claims), 'claims;', [i for i in ids if i not in thms], 'missing')
