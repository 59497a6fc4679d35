#!/usr/bin/env python3
"""Regenerate MANIFEST.json: every theorem named Cnn_* in lean/Verif/Props belongs to property Cnn."""
import json,re,glob,os
root=os.path.dirname(os.path.dirname(os.path.abspath(__file__)))
thms={}
for f in sorted(glob.glob(root+'/lean/Verif/Props/*.lean')):
    stack=[]
    for line in open(f):
        m=re.match(r'namespace\s+(\S+)',line)
        if m: stack.append(m.group(1)); continue
        m=re.match(r'end\s+(\S+)',line)
        if m and stack and stack[-1]==m.group(1): stack.pop(); continue
        m=re.match(r'(?:@\[[^\]]*\]\s*)?theorem\s+(C\d\d_\S+)',line)
        if m:
            n=m.group(1).rstrip(':')
            thms.setdefault(n[:3],[]).append('.'.join(stack+[n]))
notes=json.load(open(root+'/tools/notes.json'))
props=[json.loads(l)['id'] for l in open(root+'/properties.jsonl') if l.strip()]
claims=[]
for p in props:
    st,note=notes.get(p,["partial","in progress"])
    claims.append({"property":p,"status":st,"theorems":thms.get(p,[]),"note":note})
json.dump({"claims":claims},open(root+'/MANIFEST.json','w'),indent=1)
for p in props:
    print(p,len(thms.get(p,[])),notes.get(p,["-"])[0])
print(set(thms)-set(props))
