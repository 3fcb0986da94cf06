#!/usr/bin/env python3
"""Writes AXIOMS.md: the axioms each theorem of MANIFEST.json depends on, as Lean prints them."""
import json,subprocess,re,collections
m=json.load(open('/verif/MANIFEST.json'))
names=[t for c in m['claims'] for t in c['theorems']]
src="import Verif\n"+"".join(f"#print axioms {n}\n" for n in names)
open('/tmp/w/ax.lean','w').write(src)
out=subprocess.run(['lake','env','lean','/tmp/w/ax.lean'],cwd='/verif/lean',capture_output=True,text=True).stdout
out=re.sub(r'\n\s+',' ',out)
d=collections.OrderedDict()
for l in out.splitlines():
    a=re.match(r"'(.*)' depends on axioms: \[(.*)\]",l)
    b=re.match(r"'(.*)' does not depend on any axioms",l)
    if a: d[a[1]]=a[2]
    elif b: d[b[1]]='none'
    else: print('??',l)
g=collections.defaultdict(list)
for k,v in d.items(): g[', '.join(sorted(v.split(', ')))].append(k)
with open('/verif/AXIOMS.md','w') as f:
    f.write("# Axioms\n\nWhat `#print axioms` says of every theorem listed in MANIFEST.json (made by tools/axioms.py).\n")
    for k in sorted(g):
        f.write(f"\n## {k} ({len(g[k])})\n\n"+", ".join(f"`{x}`" for x in g[k])+"\n")
print({k:len(v) for k,v in g.items()},len(names))
