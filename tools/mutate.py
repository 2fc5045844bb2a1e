#!/usr/bin/env python3
"""Seeded-bug runner.  Works in a scratch copy (never in /verif/lean).
usage: mutate.py mutants.py [ids...]
A mutant: dict(id, mod, old, new, claim, props).  The mutated module and everything that imports it are put into
one file, so that one broken lemma does not hide the others, and the manifest theorems whose proof no longer
goes through (directly or through a lemma) are listed."""
import sys,os,re,json,subprocess,importlib.util
LEAN='/verif/lean'; SCR='/tmp/scratch'
mods={}
for d,_,fs in os.walk(LEAN+'/Verif'):
    for f in fs:
        if d.endswith('/Conform') and f not in ('Run.lean','Api.lean'): continue  # tests of the model, not theorems
        if f.endswith('.lean'):
            p=os.path.join(d,f); m=p[len(LEAN)+1:-5].replace('/','.')
            s=open(p).read()
            mods[m]=(s,re.findall(r'^import (\S+)',s,re.M))
order=[]
def visit(m):
    if m in order or m not in mods: return
    for i in mods[m][1]: visit(i)
    order.append(m)
for m in sorted(mods): visit(m)
man=json.load(open('/verif/MANIFEST.json'))['claims']
heads={}
for c in man:
    for t in c['theorems']: heads.setdefault(t,[]).append(c['property'])
def run(mu):
    mod='Verif.'+mu['mod']
    src=mods[mod][0]
    edits=mu.get('edits') or [(mu['old'],mu['new'])]
    for o,n in edits:
        if src.count(o)<1: return dict(mu,error='old text not found: '+o)
        if src.count(o)>1 and not mu.get('multi'): return dict(mu,error='old text not unique: '+o)
        src=src.replace(o,n)
    down=[mod]
    for m in order:
        if m not in down and any(i in down for i in mods[m][1]): down.append(m)
    imps=set(); body=[]
    for m in order:
        if m in down:
            s=src if m==mod else mods[m][0]
            imps|={i for i in mods[m][1] if i not in down}
            s=re.sub(r'^import .*$','',s,flags=re.M)
            body.append('section\n'+s+'\nend\n')
    out=''.join('import %s\n'%i for i in sorted(imps))+'import Lean.Util.CollectAxioms\n'
    out+='\n'.join(body)
    out+='\nsection\nopen Lean\nrun_cmd do\n  for n in ['+', '.join('`'+h for h in heads)+'] do\n    if (← getEnv).contains n then\n      let ax ← collectAxioms n\n      if ax.contains ``sorryAx then logInfo m!"BROKEN {n}"\n      else logInfo m!"HOLDS {n}"\n    else logInfo m!"ABSENT {n}"\nend\n'
    os.makedirs(SCR,exist_ok=True)
    f=f'{SCR}/{mu["id"]}.lean'; open(f,'w').write(out)
    r=subprocess.run(['lake','env','lean',f],cwd=LEAN,capture_output=True,text=True,timeout=3000)
    o=r.stdout+r.stderr
    open(f'{SCR}/{mu["id"]}.out','w').write(o)
    br=re.findall(r'BROKEN (\S+)',o)
    ho=re.findall(r'HOLDS (\S+)',o); ab=re.findall(r'ABSENT (\S+)',o)
    if not ho and not br: return dict(mu,error='no verdict: '+o[-300:])
    # theorems present upstream only count as holds
    up=set()
    res=dict(mu,broken=br,absent=ab)
    bp=sorted({p for t in br+[a for a in ab if False] for p in heads[t]})
    res['broken_props']=bp
    res['missed']=[p for p in mu['props'] if p not in bp]
    return res
if __name__=='__main__':
    spec=importlib.util.spec_from_file_location('mm',sys.argv[1]); mm=importlib.util.module_from_spec(spec); spec.loader.exec_module(mm)
    ids=set(sys.argv[2:])
    from concurrent.futures import ThreadPoolExecutor
    todo=[m for m in mm.MUTANTS if not ids or m['id'] in ids]
    with ThreadPoolExecutor(3) as ex:
        for r in ex.map(run,todo):
            if 'error' in r: print(r['id'],'ERROR',r['error'],flush=True); continue
            print(r['id'],r['mod'],'| broken',len(r['broken']),'props',' '.join(r['broken_props']),'| MISSED',r['missed'],flush=True)
            json.dump(r,open(f'{SCR}/{r["id"]}.json','w'))
