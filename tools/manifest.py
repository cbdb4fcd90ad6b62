#!/usr/bin/env python3
"""Write MANIFEST.json: theorem names are collected from lean/Verif/Props/*.lean
(every theorem whose name starts with Cxx_), status and note from tools/status.json."""
import glob, json, re
names = {}
for f in sorted(glob.glob('/verif/lean/Verif/Props/*.lean')):
    ns = None
    for line in open(f):
        m = re.match(r'namespace (\S+)', line)
        if m and ns is None:
            ns = m.group(1)
        m = re.match(r'theorem ((C\d\d\d?)_\S+)', line)
        if m:
            names.setdefault(m.group(2), []).append(ns + '.' + m.group(1))
status = json.load(open('/verif/tools/status.json'))
claims = []
for line in open('/verif/properties.jsonl'):
    pid = json.loads(line)['id']
    st = status.get(pid)
    if not st or pid not in names:
        print('no theorem/status for', pid)
        continue
    claims.append({'property': pid, 'status': st[0], 'theorems': names[pid], 'note': st[1]})
json.dump({'claims': claims}, open('/verif/MANIFEST.json', 'w'), indent=1)
print(len(claims), 'claims,', sum(len(c['theorems']) for c in claims), 'theorems')
