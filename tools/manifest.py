import json,re,glob
# derive theorem lists from sources
ths={}
for f in glob.glob('/verif/lean/Verif/Props/*.lean'):
    src=open(f).read()
    for m in re.finditer(r'^theorem (C(\d\d\d?)_\w+)',src,re.M):
        ths.setdefault('C'+m.group(2),[]).append('Hrdc.'+m.group(1))
notes=json.load(open('/verif/tools/notes.json')) if __import__('os').path.exists('/verif/tools/notes.json') else {}
claims=[]
for line in open('/verif/properties.jsonl'):
    p=json.loads(line)['id']
    t=ths.get(p,[])
    n=notes.get(p,{})
    st=n.get('status') or ('partial' if any('_partial' in x for x in t) else 'proved')
    if not t and st!='not_applicable': continue
    claims.append({"property":p,"status":st,"theorems":sorted(t),"note":n.get('note','')})
json.dump({"claims":claims},open('/verif/MANIFEST.json','w'),indent=1)
print(len(claims))
