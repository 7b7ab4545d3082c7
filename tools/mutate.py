#!/usr/bin/env python3
"""Mutation tests. usage: mutate.py mutations.json [worker-count]
Works on a copy of /verif/lean in /tmp/mut; every module depending on the edited one is recompiled with a driver that
keeps going after errors (a theorem whose proof fails is left with Lean's error placeholder), then the theorems
Cnn_* that are missing or rest on such a placeholder are the ones that failed. One JSON line per edit is appended to
/verif/seeded/LOG.jsonl."""
import json, os, re, shutil, subprocess, sys, time
from concurrent.futures import ThreadPoolExecutor, wait, FIRST_COMPLETED
TOOL='/tmp/mut'; SRC='/verif/lean'; W=os.environ.get('MUTW','/tmp/mut/w'); LOG='/verif/seeded/LOG.jsonl'
muts=json.load(open(sys.argv[1])); NW=int(sys.argv[2]) if len(sys.argv)>2 else 3
lp=subprocess.check_output(['lake','env','printenv','LEAN_PATH'],cwd=SRC,text=True).strip().split(':')
base=[p for p in lp if p.startswith(SRC) and 'build' in p][0]
rest=[p for p in lp if p!=base]
shutil.rmtree(W,ignore_errors=True); os.makedirs(W)
subprocess.check_call(['cp','-r',SRC+'/Verif',W+'/']); shutil.copy(SRC+'/Verif.lean',W)
OL=W+'/olean'; subprocess.check_call(['cp','-r',base,OL])
BASE=W+'/base'; subprocess.check_call(['cp','-r',OL,BASE])
mods={}
for d,_,fs in os.walk(W+'/Verif'):
    for f in fs:
        if f.endswith('.lean') and '/Conformance' not in d:
            p=os.path.join(d,f); m=os.path.relpath(p,W)[:-5].replace('/','.')
            mods[m]=[x for x in re.findall(r'^import (\S+)',open(p).read(),re.M) if x.startswith('Verif.')]
def dependents(m):
    s={m}; ch=True
    while ch:
        ch=False
        for x,ds in mods.items():
            if x not in s and any(d in s for d in ds): s.add(x); ch=True
    return s
def ancestors(ms):
    s=set(); st=list(ms)
    while st:
        x=st.pop()
        if x not in s: s.add(x); st+=mods.get(x,[])
    return s
def claimmods(claim): # the modules with the theorems of the properties named in the claim
    cs=re.findall(r'C\d\d',claim); r=set()
    for x in mods:
        if '.Props.' in x and not x.endswith('Examples') and any(re.search(r'^theorem %s_'%c,open(path(x,W,'.lean')).read(),re.M) for c in cs): r.add(x)
    return r
def path(m,root,ext): return root+'/'+m.replace('.','/')+ext
env=dict(os.environ,LEAN_PATH=':'.join([OL]+rest))
def compile(m):
    out=path(m,OL,'.olean')
    if os.path.exists(out): os.remove(out)
    r=subprocess.run(['lean','--run',TOOL+'/Driver.lean',path(m,W,'.lean'),m,out,OL]+rest,capture_output=True,text=True,env=env,timeout=1800)
    errs=[int(l.split()[1]) for l in r.stdout.splitlines() if l.startswith('ERR')]
    if not os.path.exists(out): errs.append(-1)
    return m,errs,r.stderr[:600]
def enclosing(m,line):
    ls=open(path(m,W,'.lean')).read().split('\n')
    for i in range(min(line,len(ls))-1,-1,-1):
        k=re.match(r'\s*(?:@\[[^\]]*\]\s*)?(?:private\s+|protected\s+|noncomputable\s+)*(theorem|lemma|def|example|instance|inductive|abbrev)\b\s*(\S+)?',ls[i])
        if k: return 'example@%s:%d'%(m,i+1) if k.group(1)=='example' else (k.group(2) or '?')
    return '?'
def axioms():
    r=subprocess.run(['lean','--run',TOOL+'/Axioms.lean',OL]+rest,capture_output=True,text=True,env=env)
    return {l.split()[0].split('.')[-1]:l.split()[1]=='true' for l in r.stdout.splitlines() if len(l.split())==2}
SKIP=os.environ.get('MUTSKIP') # modules left alone, e.g. those that only hold examples
QUICK=os.environ.get('MUTQUICK') # stop as soon as a declaration fails on which a theorem of every property named rests
names={}; deps={}
if QUICK:
    r=subprocess.run(['lean','--run',TOOL+'/Deps.lean',OL]+rest,capture_output=True,text=True,env=env)
    for l in r.stdout.splitlines():
        f=l.split()
        if f[0]=='N': names.setdefault(f[2],[]).append((f[3],f[1]))
        else: deps[f[1]]=set(f[2:])
    assert deps, r.stderr
    allthm=set(deps)
else: allthm=set(axioms())
def mutual(x,n): # the declarations in the same mutual block
    for b in re.findall(r'^mutual\b(.*?)^end\b',open(path(x,W,'.lean')).read(),re.S|re.M):
        ns=re.findall(r'^\s*(?:theorem|lemma|def)\s+(\S+)',b,re.M)
        if n in ns: return ns
    return [n]
def resting(direct): # the theorems that rest on one of the declarations (module, name)
    ks=set()
    direct=[(x,k) for x,n in direct for k in mutual(x,n)]
    for x,n in direct:
        for full,k in names.get(x,[]):
            if n!='?' and (full==n or full.endswith('.'+n)): ks.add(k)
    return sorted(t for t,d in deps.items() if d&ks)
done=set()
if os.path.exists(LOG):
    for l in open(LOG):
        try: done.add(json.loads(l).get('id'))
        except Exception: pass
for mu in muts:
    if mu['id'] in done: continue
    t0=time.time(); m='Verif.'+mu['file']
    p=path(m,W,'.lean'); s=open(p).read()
    if s.count(mu['old'])!=1: print('SKIP',mu['id'],'matches',s.count(mu['old'])); continue
    open(p,'w').write(s.replace(mu['old'],mu['new']))
    todo={x for x in dependents(m) if x==m or not (SKIP and re.search(SKIP,x))}
    if os.environ.get('MUTCLAIM') or 'only' in mu:
        todo&=ancestors(['Verif.'+x for x in mu['only']] if 'only' in mu else claimmods(mu['claim']))|{m}
    pend={x:[d for d in mods[x] if d in todo] for x in todo}; fin=set(); fails={}; errtxt=''
    with ThreadPoolExecutor(NW) as ex:
        run={}
        while pend or run:
            for x in [x for x,d in pend.items() if all(y in fin for y in d)]:
                run[ex.submit(compile,x)]=x; del pend[x]
            d,_=wait(run,return_when=FIRST_COMPLETED)
            for f in d:
                x,errs,tx=f.result(); fin.add(x); del run[f]
                if errs: fails[x]=errs
                if x==m: errtxt=tx
                if x==m and errs: pend={}; 
                elif errs and QUICK:
                    quick=resting([(x,enclosing(x,e)) for x,es in fails.items() for e in es if e>0])
                    if all(any(t.startswith(c) for t in quick) for c in re.findall(r'C\d\d',mu['claim'])): pend={}
    rec={'id':mu['id'],'definition':mu['def'],'file':mu['file'],'edit':mu['desc'] if 'desc' in mu else f"{mu['old']}  ==>  {mu['new']}",'claim_broken':mu['claim']}
    if m in fails: print('INVALID',mu['id'],errtxt); rec=None
    else:
        if QUICK: ax=None
        # the root module imports everything; rebuild it
        else: compileroot=subprocess.run(['lean','--run',TOOL+'/Driver.lean',W+'/Verif.lean','Verif',OL+'/Verif.olean',OL]+rest,capture_output=True,text=True,env=env)
        if QUICK: failed=resting([(x,enclosing(x,e)) for x,es in fails.items() for e in es if e>0])
        else: ax=axioms(); failed=sorted(t for t in allthm if ax.get(t,True))
        direct=sorted({enclosing(x,e) for x,es in fails.items() for e in es})
        exp=re.findall(r'C\d\d',mu['claim'])
        rec['theorems_failed']=failed; rec['declarations_failed_directly']=direct[:60]
        missing=[c for c in exp if not any(t.startswith(c) for t in failed)]
        rec['claims_without_failing_theorem']=missing; rec['theorems_tightened']=[]
        print('SURVIVED' if not failed else ('WEAK' if missing else 'killed'),mu['id'],missing,len(failed),'%.0fs'%(time.time()-t0),flush=True)
        open(LOG,'a').write(json.dumps(rec)+'\n')
    open(p,'w').write(s)
    for x in todo:
        shutil.copy(path(x,BASE,'.olean'),path(x,OL,'.olean'))
    shutil.copy(BASE+'/Verif.olean',OL+'/Verif.olean')
