#!/usr/bin/env python3
"""Mechanical mutants of every definition that cites code.  usage: automut.py out.jsonl [per_def] [module-prefix]
Each mutant is one token-level edit in the body of one definition.  The mutated module and everything that imports it are
elaborated as one file (as in mutate.py), stopping at the first error outside the edited definition.
verdicts: invalid (the edit does not typecheck), killed (some later declaration fails), SURVIVED."""
import sys,os,re,json,subprocess,random,threading
from concurrent.futures import ThreadPoolExecutor
sys.path.insert(0,'/verif/tools')
import mutate as M
SCR='/tmp/auto'; LEAN=M.LEAN
random.seed(int(os.environ.get("SEED","7")))
SW=[('low','high'),('high','low'),('lo','hi'),('hi','lo'),('true','false'),('false','true'),('<','≤'),('≤','<'),('&&','||'),('||','&&'),
    ('∧','∨'),('∨','∧'),('∪','∩'),('∩','∪'),('+','-'),('1','0'),('0','1'),('always','never'),('never','always'),('a','b'),('b','a'),
    ('=','≠'),('≠','='),('==','!='),('.1','.2'),('.2','.1'),('++','$DROP'),('fst','snd'),('snd','fst'),('filter','$NEG'),('min','max'),('max','min'),
    ('if','$NEG'),('::','$DROPL'),('.none','.unit'),('.empty','.always'),('none','some default'),('any','all'),('all','any'),('inc','exc'),('exc','inc'),('l','r'),('r','l')]
def decls(s):
    pat=re.compile(r'(/--(?:(?!-/).)*-/)\s*((?:@\[[^\]]*\]\s*)*(?:private |protected |noncomputable )*(?:def|abbrev|instance)\b.*?)(?=\n\n|\n/--|\nend |\ntheorem|\nlemma|\nvariable|\nsection|\Z)',re.S)
    for m in pat.finditer(s):
        if re.search(r'\.rs:\d',m.group(1)): yield m.start(2),m.end(2),m.group(2)
def body_start(d):
    # after the header: first ':=' or newline followed by ' |'
    i=d.find(':='); j=re.search(r'\n\s*\|',d)
    c=[x for x in (i+2 if i>=0 else -1, j.start() if j else -1) if x>=0]
    return min(c) if c else len(d)
def mutants(d):
    b=body_start(d); out=[]
    body=d[b:]
    term=re.search(r'\n\s*(termination_by|decreasing_by)',body)
    lim=term.start() if term else len(body)
    toks=[(m.start(),m.group(0)) for m in re.finditer(r'\.[12]\b|[A-Za-z_][A-Za-z_0-9\']*|&&|\|\||\+\+|::|==|!=|:=|=>|[<≤∧∨∪∩+=≠]|\d+',body[:lim])]
    for p,t in toks:
        if t in(':=','=>'): continue
        for x,y in SW:
            if x!=t: continue
            if y=='$DROP':
                m=re.match(r'\+\+\s*(\([^()]*\)|[\w.]+)',body[p:])
                if m: out.append((p,m.group(0),''))
            elif y=='$DROPL':
                m=re.search(r'(\([^()]*\)|[\w.]+)\s*::\s*$',body[:p+2])
                if m and '|' not in body[body.rfind('\n',0,p)+1:p].split('=>')[-1]: out.append((m.start(),body[m.start():p+2],''))
            elif y=='$NEG':
                if t=='if':
                    m=re.match(r'if (?!let|h)(.*?) then',body[p:],re.S)
                    if m: out.append((p,m.group(0),'if ¬ ('+m.group(1)+') then'))
                else: out.append((p,'filter','filter (fun _ => true) |>.filter') if False else (p,'',''))
            else: out.append((p,t,y))
    # swap right-hand sides of adjacent arms
    arms=[m for m in re.finditer(r'\|[^\n|]*=>\s*([^\n]*)\n',body[:lim]+'\n')]
    for x,y in zip(arms,arms[1:]):
        if x.group(1)!=y.group(1) and x.group(1).strip() and y.group(1).strip() and not re.search(r'(match|do|with|fun \w+ =>)\s*$',x.group(1)+'\n'):
            out.append(('ARM',x.span(1),y.span(1)))
            out.append(('ARM1',x.span(1),y.span(1)))
    res=[]
    for o in out:
        if o[0]=='ARM':
            (a,e),(c,f)=o[1],o[2]; nb=body[:a]+body[c:f]+body[e:c]+body[a:e]+body[f:]; desc='swap arms: %s <-> %s'%(body[a:e],body[c:f])
        elif o[0]=='ARM1':
            (a,e),(c,f)=o[1],o[2]; nb=body[:a]+body[c:f]+body[e:]; desc='arm replaced: %s -> %s'%(body[a:e],body[c:f])
        else:
            p,t,y=o
            if t==y: continue
            nb=body[:p]+y+body[p+len(t):]; desc='%r -> %r at ...%s'%(t,y,body[max(0,p-25):p+30].replace('\n','⏎'))
        res.append((desc,d[:b]+nb))
    return res
def run(job):
    k,mod,span,old,desc,new=job
    src=M.mods[mod][0]; s0,e0=span
    src=src[:s0]+new+src[e0:]
    down=[mod]
    for m in M.order:
        if m not in down and any(i in down for i in M.mods[m][1]): down.append(m)
    imps=set(); out=''; marker=None
    bodies=[]
    for m in M.order:
        if m in down: imps|={i for i in M.mods[m][1] if i not in down}
    out=''.join('import %s\n'%i for i in sorted(imps))
    for m in M.order:
        if m in down:
            s=src if m==mod else M.mods[m][0]
            if m==mod:
                pre=re.sub(r'^import .*$','',src[:s0],flags=re.M)
                l0=(out+'section\n'+pre).count('\n')+1; l1=l0+new.count('\n')+1
            s=re.sub(r'^import .*$','',s,flags=re.M)
            out+='section\n'+s+'\nend\n'
    f=f'{SCR}/m{k}.lean'; open(f,'w').write(out)
    p=subprocess.Popen(['lake','env','stdbuf','-oL','lean','--json',f],cwd=LEAN,stdout=subprocess.PIPE,stderr=subprocess.DEVNULL,text=True,start_new_session=True)
    tm=threading.Timer(1500,lambda:os.killpg(p.pid,9)); tm.start()
    v='SURVIVED'; err=''
    for line in p.stdout:
        try: j=json.loads(line)
        except Exception: continue
        if j.get('severity')!='error': continue
        ln=j['pos']['line']; err=j['data'][:200]
        v='invalid' if l0<=ln<=l1 else 'killed'
        if v=='killed':
            # name the failing declaration
            L=out.split('\n')
            for q in range(ln-1,-1,-1):
                m=re.match(r'(?:private |protected )?(?:theorem|lemma|def|example|instance)\s*(\S*)',L[q])
                if m: err=m.group(0); break
            if err.startswith('example'): v='SURVIVED'; continue   # only theorems count
        break
    try: os.killpg(p.pid,9)
    except Exception: pass
    p.wait(); tm.cancel(); os.remove(f)
    return dict(k=k,mod=mod,defn=re.search(r'(?:def|abbrev|instance)\s+(\S+)',old).group(1),desc=desc,verdict=v,err=err)
if __name__=='__main__':
    outp=sys.argv[1]; per=int(sys.argv[2]) if len(sys.argv)>2 else 3; pref=sys.argv[3] if len(sys.argv)>3 else 'Verif'
    os.makedirs(SCR,exist_ok=True)
    jobs=[];k=0
    done=set()
    if os.path.exists(outp): done={json.loads(l)['k'] for l in open(outp)}
    for mod in M.order:
        for a,b,d in decls(M.mods[mod][0]):
            ms=mutants(d); random.shuffle(ms)
            for desc,new in ms[:per]:
                k+=1
                if k in done or not mod.startswith(pref): continue
                jobs.append((k,mod,(a,b),d,desc,new))
    print(len(jobs),'mutants',flush=True)
    random.Random(1).shuffle(jobs)
    with ThreadPoolExecutor(int(os.environ.get('JOBS','3'))) as ex, open(outp,'a') as g:
        for r in ex.map(run,jobs):
            g.write(json.dumps(r,ensure_ascii=False)+'\n'); g.flush()
            if r['verdict']=='SURVIVED': print(r,flush=True)
