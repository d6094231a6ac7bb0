import re,json,glob,sys
# generate manifest from Props files

thms={}
for f in sorted(glob.glob('/verif/lean/Verif/Props/*.lean')):
    for m in re.finditer(r'^theorem (C\d{2,3}\w*)',open(f).read(),re.M):
        n=m.group(1); thms.setdefault(re.match(r'C\d+',n).group(0),[]).append('AstroRun.'+n)
notes=json.load(open('/verif/tools/notes.json'))
props=[json.loads(l)['id'] for l in open('/verif/properties.jsonl')]
cl=[]
for p in props:
    if p not in thms: continue
    t=thms[p]
    part=any('_partial' in x or '_refuted' in x for x in t)
    n=notes.get(p,'')
    status=notes.get(p+'_status', 'partial' if part else 'proved')
    cl.append({"property":p,"status":status,"theorems":t,"note":n})
json.dump({"claims":cl},open('/verif/MANIFEST.json','w'),indent=1)
print(len(cl),'claims; missing',[p for p in props if p not in thms])
