#!/usr/bin/env python3
"""Regenerates section 5 of DESIGN.md from properties.jsonl and MANIFEST.json."""
import json
m={c['property']:c for c in json.load(open('/verif/MANIFEST.json'))['claims']}
how={}
for l in open('/verif/tools/how.txt'):
    if l.strip():
        ids,t=l.strip().split('|',1)
        for i in ids.split(): how[i]=t.strip()
out=['<!-- TABLE -->','## 5. Per property','','| id | property | status | how it is modelled and proved | theorems |','|---|---|---|---|---|']
for l in open('/verif/properties.jsonl'):
    p=json.loads(l); c=m[p['id']]
    out.append(f"| {p['id']} | {p['title']} | {c['status']} | {how.get(p['id'],'')} | "+', '.join('`'+t.replace('Verif.','')+'`' for t in c['theorems'])+' |')
s=open('/verif/DESIGN.md').read()
s=s[:s.index('<!-- TABLE -->')]+'\n'.join(out)+'\n'
open('/verif/DESIGN.md','w').write(s)
print([i for i in m if i not in how])
