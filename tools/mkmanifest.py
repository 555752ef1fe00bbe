#!/usr/bin/env python3
"""Write MANIFEST.json: claims per property. Theorems are found by their C<nn>_ prefix in
lean/Verif/Props; status and notes come from the tables below."""
import json, os, re, glob
root = os.path.dirname(os.path.dirname(os.path.abspath(__file__)))
props = [json.loads(l) for l in open(os.path.join(root, 'properties.jsonl'))]
thms = {}
for f in sorted(glob.glob(os.path.join(root, 'lean/Verif/Props/*.lean'))):
    ns = None
    txt = open(f).read()
    m = re.search(r'^namespace (\S+)', txt, re.M)
    ns = m.group(1) if m else ''
    for t in re.findall(r'^theorem (C\d+\w*)', txt, re.M):
        thms.setdefault(re.match(r'C\d+', t).group(), []).append(ns + '.' + t)
exec(open(os.path.join(root, 'tools/status.py')).read())   # STATUS, NOTE
claims = []
for p in props:
    i = p['id']
    if i not in thms:
        if i in STATUS:
            claims.append({'property': i, 'status': STATUS[i], 'theorems': [], 'note': NOTE.get(i, '')})
        continue
    claims.append({'property': i, 'status': STATUS.get(i, 'proved'), 'theorems': thms[i], 'note': NOTE.get(i, '')})
json.dump({'claims': claims}, open(os.path.join(root, 'MANIFEST.json'), 'w'), indent=1)
missing = [p['id'] for p in props if p['id'] not in thms and p['id'] not in STATUS]
print(len(claims), 'claims; missing:', missing)
