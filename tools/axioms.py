#!/usr/bin/env python3
"""Writes /verif/AXIOMS.md: the axioms every theorem named in MANIFEST.json depends on (run after lake build)."""
import json, subprocess, re, collections
M=json.load(open('/verif/MANIFEST.json'))
ths=[t for c in M['claims'] for t in c['theorems']]
src='import Verif\n'+'\n'.join('#print axioms '+t for t in ths)+'\n'
open('/tmp/ax.lean','w').write(src)
out=subprocess.run(['lake','env','lean','-M','8000','/tmp/ax.lean'],cwd='/verif/lean',capture_output=True,text=True).stdout
out=re.sub(r'\n\s+',' ',out)
d={}
for l in out.splitlines():
    m=re.match(r"'(.*)' depends on axioms: \[(.*)\]",l)
    if m: d[m[1]]=m[2]
    m=re.match(r"'(.*)' does not depend on any axioms",l)
    if m: d[m[1]]='none'
miss=[t for t in ths if t not in d]
assert not miss, miss
g=collections.defaultdict(list)
for t in ths: g[d[t]].append(t)
with open('/verif/AXIOMS.md','w') as f:
    f.write('# Axioms per theorem\n\nOutput of `#print axioms` for every theorem in MANIFEST.json (tools/axioms.py).\n')
    for k in sorted(g):
        f.write(f'\n## {k}\n\n'+'\n'.join(f'* `{t}`' for t in g[k])+'\n')
print({k:len(v) for k,v in g.items()})
