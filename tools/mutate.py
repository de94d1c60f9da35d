#!/usr/bin/env python3
"""Seeded-bug runner.  usage: mutate.py mutants.json [-j N] [--log]
mutants.json: list of {"file": "Ga/Solver.lean", "def": name, "old": text, "new": text, "edit": words, "claim": words, "expect": [theorem prefixes]}
Works in /tmp/mut only.  Every module that depends on the edited file is re-elaborated with a small driver (Keep.lean) that
keeps going after errors and reports every theorem whose proof, or a lemma it uses, no longer checks."""
import fcntl,json,os,re,subprocess,sys,shutil,time
from concurrent.futures import ThreadPoolExecutor
SRC='/verif/lean'; W=os.environ.get('MUTW','/tmp/mut'); OL=SRC+'/.lake/build/lib/lean'
_lock=open(os.environ.get('MUTW','/tmp/mut')+'.lock','w'); fcntl.flock(_lock,fcntl.LOCK_EX)  # one runner at a time
mut=json.load(open(sys.argv[1])); log='--log' in sys.argv
J=int(sys.argv[sys.argv.index('-j')+1]) if '-j' in sys.argv else 3
lp=subprocess.run(['lake','env','printenv','LEAN_PATH'],cwd=SRC,capture_output=True,text=True).stdout.strip()
base=[p for p in lp.split(':') if 'verif' not in p]
shutil.rmtree(W,ignore_errors=True); os.makedirs(W)
shutil.copytree(SRC+'/Verif',W+'/src/Verif')
for d,_,fs in os.walk(OL):
    r=os.path.relpath(d,OL); os.makedirs(f'{W}/ol/{r}',exist_ok=True)
    for f in fs:
        if f.endswith('.olean'): os.symlink(f'{d}/{f}',f'{W}/ol/{r}/{f}')
mods={}
for d,_,fs in os.walk(W+'/src'):
    for f in fs:
        p=os.path.join(d,f); m=os.path.relpath(p,W+'/src')[:-5].replace('/','.')
        mods[m]=[x for x in re.findall(r'^import (Verif\S*)',open(p).read(),re.M)]
env=dict(os.environ); env['LEAN_PATH']=W+'/ol:'+':'.join(base)
if not os.path.exists('/tmp/mutk/Keep.lean'):
    os.makedirs('/tmp/mutk',exist_ok=True); shutil.copy('/verif/tools/Keep.lean.txt','/tmp/mutk/Keep.lean')
def run(m):
    ol=f"{W}/ol/{m.replace('.','/')}.olean"; tmp=ol+'.new'
    try:
        r=subprocess.run(['lean','--run','/tmp/mutk/Keep.lean',f"{W}/src/{m.replace('.','/')}.lean",m,tmp],env=env,capture_output=True,text=True,timeout=900)
        out=r.stdout+r.stderr
    except subprocess.TimeoutExpired: out='ERR 0 timeout\n'
    if os.path.exists(tmp):
        if os.path.lexists(ol): os.unlink(ol)
        os.rename(tmp,ol)
    return m,out
for i,x in enumerate(mut):
    p=f"{W}/src/Verif/{x['file']}"; s=open(p).read()
    n=s.count(x['old'])
    if n!=1: print(f"#{i} {x['def']}: OLD TEXT FOUND {n} TIMES"); continue
    open(p,'w').write(s.replace(x['old'],x['new']))
    root='Verif.'+x['file'][:-5].replace('/','.')
    dirty={root}; ch=True
    while ch:
        ch=False
        for m,d in mods.items():
            if m not in dirty and any(y in dirty for y in d): dirty.add(m); ch=True
    t=time.time(); done=set(); broken=[]; errs=[]; todo=set(dirty)
    with ThreadPoolExecutor(J) as ex:
        fut={}
        while todo or fut:
            for m in sorted(todo):
                if all(y not in dirty or y in done for y in mods[m]):
                    fut[ex.submit(run,m)]=m; todo.discard(m)
            time.sleep(0.1)
            for f in [f for f in fut if f.done()]:
                m,out=f.result(); del fut[f]; done.add(m)
                if 'DONE' not in out: errs.append((m,'NO OUTPUT '+out[-300:]))
                for l in out.split('\n'):
                    if l.startswith('BROKEN'): broken.append(l.split()[1])
                    if l.startswith('ERR'): errs.append((m,l[4:]))
    props=sorted({b.split('.')[-1] for b in broken if re.match(r'C\d\d+_',b.split('.')[-1])})
    inm=[e for e in errs if e[0]==root]
    print(f"#{i} {x['def']}: {x['edit']}  [{time.time()-t:.0f}s]")
    if inm: print('   IN MUTATED FILE:',inm[:4])
    miss=[e for e in x.get('expect',[]) if not any(b.startswith(e) for b in props)]
    print('   props:',' '.join(props) or 'NONE'); print('   other broken:',len(broken)-len(props),'errors:',len(errs), 'ex:', errs[:2] if not props else '')
    if miss: print('   !!! EXPECTED BUT NOT BROKEN:',miss)
    sys.stdout.flush()
    if log:
        open('/verif/seeded/LOG.jsonl','a').write(json.dumps({"definition":x['def'],"file":"lean/Verif/"+x['file'],"edit":x['edit'],"claim":x['claim'],"failed":props,"survived_though_expected":miss,"tightened":[]})+'\n')
    open(p,'w').write(s)
    for m in dirty:
        ol=f"{W}/ol/{m.replace('.','/')}.olean"
        if os.path.lexists(ol): os.unlink(ol)
        os.symlink(f"{OL}/{m.replace('.','/')}.olean",ol)
