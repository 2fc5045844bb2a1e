#!/usr/bin/env python3
"""Turns the results of mutate.py (in /tmp/scratch) into lines of seeded/LOG.jsonl."""
import json,sys,os
done=set()
p='/verif/seeded/LOG.jsonl'
if os.path.exists(p): done={json.loads(l)['id'] for l in open(p)}
with open(p,'a') as f:
    for i in sys.argv[1:]:
        r=json.load(open(f'/tmp/scratch/{i}.json'))
        if i in done: continue
        ed=r.get('edits') or [(r['old'],r['new'])]
        f.write(json.dumps({"id":i,"definition":r['mod'],"edit":[{"from":a.strip(),"to":b.strip()} for a,b in ed],"claim_broken":r['claim'],"properties":r['props'],"theorems_failed":[t.replace('Verif.','',1) for t in r['broken']],"tightened":r.get('tightened',[]),"note":r.get('note','')},ensure_ascii=False)+'\n')
