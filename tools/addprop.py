import json,sys
# usage: addprop.py < json {id,title,statement,quantifier,why_tests_cant,anchors,status,note}
for line in sys.stdin:
    line=line.strip()
    if not line: continue
    d=json.loads(line)
    st,note=d.pop("status"),d.pop("note")
    ps=[json.loads(l) for l in open('/verif/properties.jsonl')]
    ps=[p for p in ps if p["id"]!=d["id"]]+[d]
    ps.sort(key=lambda p:int(p["id"][1:]))
    open('/verif/properties.jsonl','w').write("".join(json.dumps(p)+"\n" for p in ps))
    n=json.load(open('/verif/tools/notes.json'))
    n[d["id"]]=[st,note]
    json.dump(n,open('/verif/tools/notes.json','w'),indent=1)
