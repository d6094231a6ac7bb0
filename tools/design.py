#!/usr/bin/env python3
"""Assemble DESIGN.md from tools/design_head.md, tools/plan.tsv, MANIFEST.json and properties.jsonl."""
import json,os,re
R='/verif/'
m={c['property']:c for c in json.load(open(R+'MANIFEST.json'))['claims']}
P={}
for l in open(R+'properties.jsonl'):
    d=json.loads(l); P[d['id']]=d
plan={}
for l in open(R+'tools/plan.tsv'):
    l=l.rstrip('\n')
    if not l: continue
    i,a,b=l.split('\t')
    if '–' in i:
        x,y=i.split('–')
        for k in range(int(x[1:]),int(y[1:])+1): plan['C%02d'%k]=(a,b)
    else: plan[i]=(a,b)
where={}
for f in sorted(os.listdir(R+'lean/Verif/Props')):
    for t in re.findall(r'^theorem (C\d{2,3}_\w+)',open(R+'lean/Verif/Props/'+f).read(),re.M): where[t]=f[:-5]
out=open(R+'tools/design_head.md').read().rstrip('\n')+'\n\n'
out+='## Plan and outcome per property\n\n`Model/X` and `Props/Y` are below `lean/Verif/`. "Missing" says what separates a partial claim from the full one.\n\n'
for i in sorted(P,key=lambda k:int(k[1:])):
    c=m[i]; a,b=plan[i]
    fs=sorted({where[t.split('.')[-1]] for t in c['theorems']})
    out+='### %s %s — %s\n'%(i,P[i]['title'],c['status'])
    out+='* Modelled: %s. Proof: %s.\n'%(a,b)
    out+='* Theorems (%s): %s.\n'%(', '.join('`Props/%s`'%f for f in fs),', '.join('`%s`'%t.split('.')[-1] for t in c['theorems']))
    if c['note']: out+='* %s %s\n'%('Missing:' if c['status']=='partial' else 'Note:',c['note'])
    out+='\n'
out+=open(R+'tools/design_tail.md').read()
open(R+'DESIGN.md','w').write(out)
miss=[i for i in P if i not in plan]
print('design ok; missing plan',miss)
