#!/usr/bin/env python3
"""Print the English and the statements of the manifest theorems of the given properties."""
import json,re,sys,glob
m=json.load(open('MANIFEST.json'))
P={d['id']:d for d in map(json.loads,open('properties.jsonl'))}
src={f:open(f).read() for f in glob.glob('lean/Verif/**/*.lean',recursive=True)}
want=set(sys.argv[1:])
for c in m['claims']:
    if want and c['property'] not in want: continue
    p=P[c['property']]
    print('=====',c['property'],c['status'],c.get('note',''))
    print('ENGLISH:',p['statement'],'[[',p['quantifier'],']]\n')
    for t in c['theorems']:
        hits=[]
        for f,s in src.items():
            stack=[]
            for mm in re.finditer(r'^(?:namespace (\S+)|section\b[^\n]*|end\b ?(\S*)|(?:/--(?:(?!-/).)*-/\s*)?(?:@\[[^\]]*\]\s*)?theorem (\S+).*?:=\s*(?:by\b|\n|[^\n]*$))',s,re.S|re.M):
                if mm.group(1): stack.append(mm.group(1))
                elif mm.group(3):
                    if '.'.join([x for x in stack if x]+[mm.group(3)])==t: hits.append((f,mm.group(0)))
                elif mm.group(0).startswith('section'): stack.append('')
                elif stack: stack.pop()
        if not hits: print('-- NOT FOUND',t)
        for f,x in hits: print('--',t,f); print(x); print()
