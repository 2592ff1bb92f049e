#!/usr/bin/env python3
"""Regenerates MANIFEST.json: theorem names are collected from lean/Verif/Props by prefix."""
import json, re, glob, os
root = os.path.dirname(os.path.dirname(os.path.abspath(__file__)))
names = {}
for f in sorted(glob.glob(root + '/lean/Verif/Props/*.lean')):
    for m in re.finditer(r'^theorem (C(\d\d)_\w+)', open(f).read(), re.M):
        names.setdefault('C' + m.group(2), []).append('Typical.' + m.group(1))
status = {}
for l in open(root + '/tools/status.txt'):
    l = l.strip()
    if l:
        i, s, note = (l + ' ').split(' ', 2)
        status[i] = (s, note.strip())
claims = []
for l in open(root + '/properties.jsonl'):
    i = json.loads(l)['id']
    if i in names:
        s, note = status.get(i, ('proved', ''))
        claims.append({"property": i, "status": s, "theorems": names[i], "note": note})
    else:
        print('no theorem for', i)
json.dump({"claims": claims}, open(root + '/MANIFEST.json', 'w'), indent=1)
