import json,re,subprocess,glob
ths={}
for f in sorted(glob.glob('/verif/lean/Verif/Props/*.lean')):
    for m in re.finditer(r'^theorem (C(\d+)_\w+)',open(f).read(),re.M):
        ths.setdefault('C'+m.group(2),[]).append('Stylish.Props.'+m.group(1))
notes=json.load(open('/verif/tools/notes.json')) if glob.glob('/verif/tools/notes.json') else {}
claims=[]
for l in open('/verif/properties.jsonl'):
    d=json.loads(l); i=d['id']
    n=notes.get(i,{})
    claims.append({"property":i,"status":n.get("status","proved"),"theorems":ths.get(i,[]),"note":n.get("note","")})
json.dump({"claims":claims},open('/verif/MANIFEST.json','w'),indent=1,ensure_ascii=False)
print([c['property'] for c in claims if not c['theorems']])
