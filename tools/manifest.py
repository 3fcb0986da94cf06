#!/usr/bin/env python3
"""Regenerates MANIFEST.json: collects the theorems named Cxx_* from lean/Verif/Props and takes
status and note of each property from tools/status.json."""
import json, re, glob, os
root = os.path.dirname(os.path.dirname(os.path.abspath(__file__)))
status = json.load(open(root + '/tools/status.json'))
thms = {}
for f in sorted(glob.glob(root + '/lean/Verif/Props/*.lean')):
    ns = []
    for line in open(f):
        m = re.match(r'namespace (\S+)', line)
        if m: ns.append(m.group(1))
        m = re.match(r'end (\S+)', line)
        if m and ns and ns[-1] == m.group(1): ns.pop()
        m = re.match(r'(?:private )?theorem (C\d\d+)_(\S+)', line)
        if m: thms.setdefault(m.group(1), []).append('.'.join(ns + [m.group(1) + '_' + m.group(2)]))
claims = []
for l in open(root + '/properties.jsonl'):
    i = json.loads(l)['id']
    if i in thms:
        s = status.get(i)
        if s is None: print('no status for', i); continue
        claims.append({"property": i, "status": s[0], "theorems": thms[i], "note": s[1]})
    else: print('no theorem for', i)
json.dump({"claims": claims}, open(root + '/MANIFEST.json', 'w'), indent=1)
print(len(claims), 'claims')
