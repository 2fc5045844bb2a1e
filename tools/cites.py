#!/usr/bin/env python3
"""Prints, for every citation `file.rs:a-b` in the model, the declaration carrying it and the cited first line."""
import re,glob,os,sys
rs=[p[6:] for p in glob.glob('/repo/**/*.rs',recursive=True)]
for f in sorted(glob.glob('/verif/lean/Verif/**/*.lean',recursive=True)):
    s=open(f).read()
    pref={'Zdd1':'weave/src/zdd/','Zdd2':'weave/src/zdd2/','Bdd':'bowtie-core/','Matr':'weave/src/matrix/'}
    root=''
    for k,v in pref.items():
        if '/Verif/'+k in f: root=v
    for m in re.finditer(r'/--(.*?)-/\s*(.*)',s,re.S):
        pass
    for m in re.finditer(r'/--((?:(?!-/).)*)-/\s*([^\n]*)',s,re.S):
        doc,decl=m.group(1),m.group(2)
        for c in re.finditer(r'([\w/.-]+\.rs):([\d,-]+)',doc):
            path=c.group(1)
            cand=[p for p in rs if p==path] or [p for p in rs if p.endswith('/'+path)]
            if len(cand)>1: cand=[p for p in cand if p.startswith(root)] or cand
            if len(cand)>1: cand=[p for p in cand if p.count('/')==min(q.count('/') for q in cand)]
            if len(cand)!=1: print(f[18:],decl[:40],path,'AMBIG',cand); continue
            L=open('/repo/'+cand[0]).read().split('\n')
            for r in c.group(2).strip(',-').split(','):
                ab=r.split('-'); a=int(ab[0]); b=int(ab[-1])
                if b>len(L): print('RANGE',f,decl,c.group(0)); continue
                print(f[18:-5],'|',decl[:45],'|',cand[0].split('src/')[-1],r,'|',L[a-1].strip()[:60],'..',L[b-1].strip()[:20])
