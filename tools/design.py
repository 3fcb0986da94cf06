#!/usr/bin/env python3
"""Writes DESIGN.md from tools/design_head.md, properties.jsonl, MANIFEST.json and tools/how.json."""
import json
how=json.load(open('/verif/tools/how.json'))
ps=[json.loads(l) for l in open('/verif/properties.jsonl')]
m={c['property']:c for c in json.load(open('/verif/MANIFEST.json'))['claims']}
o=open('/verif/tools/design_head.md').read()
o+="\n## 5. Property by property\n\nFor each: how it is modelled and proved, the file with the theorems, and the verdict.\n\n"
import glob,re,os
where={}
for f in sorted(glob.glob('/verif/lean/Verif/Props/*.lean')):
    for c in set(re.findall(r'^theorem (C\d\d+)_',open(f).read(),re.M)): where.setdefault(c,[]).append('Props/'+os.path.basename(f))
for p in ps:
    i=p['id'];c=m[i]
    th=[t.split('.')[-1] for t in c['theorems']]
    neg=[t for t in th if 'fail' in t or 'panics' in t]
    o+=f"### {i} {p['title']} — {c['status']}\n\n{p['statement']}\n\n* How: {how[i]}\n* Where: {', '.join(where.get(i,[]))}; {len(th)} theorems"
    if neg: o+=f", of which against the code or marking limits: {', '.join(neg)}"
    o+=".\n"
    if c['note']: o+=f"* Verdict: {c['note']}\n"
    o+="\n"
open('/verif/DESIGN.md','w').write(o)
