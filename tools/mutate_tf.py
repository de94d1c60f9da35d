#!/usr/bin/env python3
"""Batch seeded-bug runner for TestFunctions/Model.lean: each round edits one token of every benchmark function at
once, re-elaborates everything that depends on the model, and reports for each function which theorems that mention
it in their statement no longer check.  usage: mutate_tf.py ROUND_SEED [-j N] [--log] [--only f,g]"""
import os,re,sys,json,random,subprocess
seed=int(sys.argv[1]); log='--log' in sys.argv
J=sys.argv[sys.argv.index('-j')+1] if '-j' in sys.argv else '2'
only=set(sys.argv[sys.argv.index('--only')+1].split(',')) if '--only' in sys.argv else None
P='/verif/lean/Verif/TestFunctions/Model.lean'
s=open(P).read()
parts=re.split(r'(?m)^(?=/--)',s)
rnd=random.Random(seed); edits=[]; out=[]
PAT=[(r'\bsin\b','cos'),(r'\bcos\b','sin'),(r'(?<=\S) \+ (?=\S)',' - '),(r'(?<=\S) - (?=\S)',' + '),(r'(?<=\S) \* (?=\S)',' + '),(r'\bmax\b','min')]
for p in parts:
    m=re.search(r'-/\s*(?:noncomputable )?def (\w+)',p)
    if not m or (only and m.group(1) not in only): out.append(p); continue
    f=m.group(1)
    b=p.index(':=',m.end()) if ':=' in p[m.end():] else len(p)
    head,body=p[:b],p[b:]
    c=[]
    for pat,rep in PAT:
        for x in re.finditer(pat,body): c.append((x.start(),x.end(),rep))
    for x in re.finditer(r'(?<![\w.])(\d+\.\d+|\d+)(?![\w.])',body):
        v=x.group(1)
        c.append((x.start(),x.end(), str(int(v)+1) if '.' not in v else v+'5'))
    if not c: out.append(p); continue
    a,e,rep=rnd.choice(c)
    nb=body[:a]+rep+body[e:]
    ctx=body[max(0,a-18):e+18].replace('\n',' ')
    edits.append((f,f"`{body[a:e]}` became `{rep}` in `...{ctx}...`"))
    out.append(head+nb)
t=''.join(out)
mj=[{"file":"TestFunctions/Model.lean","def":"batch","old":s,"new":t,"edit":f"batch {seed}","claim":"","expect":[]}]
json.dump(mj,open(f'/tmp/ms/tf{seed}.json','w'))
env=dict(os.environ); env['MUTW']='/tmp/mutf'
r=subprocess.run(['python3','/verif/tools/mutate.py',f'/tmp/ms/tf{seed}.json','-j',J],env=env,capture_output=True,text=True)
print(r.stdout[-300:],r.stderr[-500:])
props=set(re.search(r'props: (.*)',r.stdout).group(1).split())
# theorem statement -> functions
stm={}
d='/verif/lean/Verif/Props/'
names=[e[0] for e in edits]
for fn in sorted(os.listdir(d)):
    if fn.startswith('TestFunctions') or fn=='Published.lean':
        for m in re.finditer(r'(?ms)^theorem (C\d+_\S+)(.*?):= (?:by|fun|\S)',open(d+fn).read()): 
            stm[m.group(1)]=set(re.findall(r'\w+',m.group(2)))
for f,ed in edits:
    th=[t for t in stm if f in stm[t]]
    br=[t for t in th if t in props]
    print(('ok   ' if br else 'MISS ')+f, ed, '| broken:',' '.join(br),'| still fine:',' '.join(t for t in th if t not in props))
    if log:
        open('/verif/seeded/LOG.jsonl','a').write(json.dumps({"definition":f,"file":"lean/Verif/TestFunctions/Model.lean","edit":ed,"claim":"value, minimum or accepted dimensions of the benchmark function (C67/C106/C107/C108/C122)","failed":br,"survived_though_expected":[t for t in th if t not in props] if not br else [],"tightened":[],"note":"batch round %d: one edit in every function at once"%seed})+'\n')
