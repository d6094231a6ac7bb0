#!/usr/bin/env python3
"""Write AXIOMS.md: the axioms of every theorem named in MANIFEST.json."""
import json,re,subprocess,os
R='/verif/'
names=[t for c in json.load(open(R+'MANIFEST.json'))['claims'] for t in c['theorems']]
src='import Verif\n'+''.join('#print axioms %s\n'%n for n in names)
open('/tmp/ax.lean','w').write(src)
o=subprocess.run(['lake','env','lean','/tmp/ax.lean'],cwd=R+'lean',capture_output=True,text=True).stdout
o=re.sub(r'\n\s+',' ',o)
res={}
for l in o.splitlines():
    g=re.match(r"'(\S+)' depends on axioms: \[(.*)\]",l)
    if g: res[g.group(1)]=g.group(2)
    g=re.match(r"'(\S+)' does not depend on any axioms",l)
    if g: res[g.group(1)]='none'
bad=[n for n in names if n not in res]
assert not bad,bad
ok={'propext','Classical.choice','Quot.sound','none'}
assert all(a.strip() in ok for v in res.values() for a in v.split(',')),res
with open(R+'AXIOMS.md','w') as f:
    f.write('# Axioms of every theorem in MANIFEST.json\n\n(`#print axioms`, written by tools/axioms.py)\n\n| theorem | axioms |\n|---|---|\n')
    for n in names: f.write('| %s | %s |\n'%(n.split('.')[-1],res[n]))
print(len(names),'theorems')
