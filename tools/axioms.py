#!/usr/bin/env python3
"""Collect the axioms of every manifest theorem (needs an up-to-date build); writes tools/axioms.json."""
import json,subprocess,re
M=json.load(open('/verif/MANIFEST.json'))
names=[t for c in M['claims'] for t in c['theorems']]
src="import Verif\n"+"".join("#print axioms %s\n"%n for n in names)
open('/tmp/ax.lean','w').write(src)
out=subprocess.run(['lake','env','lean','/tmp/ax.lean'],cwd='/verif/lean',capture_output=True,text=True).stdout
out=re.sub(r'\n\s+',' ',out)
R={}
for l in out.splitlines():
    m=re.match(r"'(.*)' depends on axioms: \[(.*)\]",l)
    if m: R[m[1]]=sorted(x.strip() for x in m[2].split(','))
    m=re.match(r"'(.*)' does not depend on any axioms",l)
    if m: R[m[1]]=[]
miss=[n for n in names if n not in R]
print(len(R),'of',len(names),'missing',miss[:5])
print(sorted({a for v in R.values() for a in v}))
json.dump(R,open('/verif/tools/axioms.json','w'),indent=0,sort_keys=True)
