#!/usr/bin/env python3
"""Apply each mutant of a list to a scratch copy of the Lean project, rebuild, record which theorems fail.
usage: mutate.py mutants.py [only-index...]; appends to /verif/seeded/LOG.jsonl"""
import sys, os, re, json, subprocess, shutil
src='/verif/lean'; D='/tmp/mut'
ns={}; exec(open(sys.argv[1]).read(), ns); M=ns['MUTANTS']
only=[int(a) for a in sys.argv[2:]]
os.makedirs(D,exist_ok=True)
subprocess.run(['rsync','-a','--delete',src+'/',D+'/'],check=False) if shutil.which('rsync') else subprocess.run(f'rm -rf {D}; cp -a {src} {D}',shell=True)
decl=re.compile(r'^(?:@\[.*\] *)?(?:private |protected )?(theorem|example|def|instance)\s*([^\s:({\[]*)')
def owner(f,line):
    L=open(os.path.join(D,f)).read().split('\n')
    for i in range(line-1,-1,-1):
        m=decl.match(L[i])
        if m: return m.group(2) or f'example@{os.path.basename(f)}:{i+1}'
    return f
def defname(text,pos):
    L=text[:pos].split('\n')
    # include the line of pos itself
    end=text.find('\n',pos); L[-1]+=text[pos:end]
    for l in reversed(L):
        m=decl.match(l)
        if m: return m.group(2)
    return '?'
for k,(f,old,new,claim) in enumerate(M):
    if only and k not in only: continue
    p=os.path.join(D,'Verif/Model',f); t=open(p).read()
    if t.count(old)!=1:
        print(k,'BAD PATTERN',f,t.count(old),repr(old)); continue
    open(p,'w').write(t.replace(old,new))
    r=subprocess.run(['lake','build'],cwd=D,capture_output=True,text=True)
    out=r.stdout+r.stderr
    fails=[]
    for m in re.finditer(r'error: (Verif/\S+\.lean):(\d+):',out):
        n=(m.group(1),owner(m.group(1),int(m.group(2))))
        if n not in fails: fails.append(n)
    broken_model=[n for fl,n in fails if '/Model/' in fl]
    open(p,'w').write(t)
    d=defname(t,t.index(old))
    names=[n for fl,n in fails]
    status='killed' if names and not broken_model else ('model does not compile' if broken_model else 'survived')
    print(k,status,d,names[:6],flush=True)
    if broken_model: continue
    if status=='killed':
        json.dump({"definition":d,"file":f"Verif/Model/{f}","edit":f"{old!r} -> {new!r}","claim_broken":claim,"theorems_failed":names,"theorems_tightened":[t for t in os.environ.get("TIGHT","").split(",") if t]},open('/tmp/last.json','w'))
        with open('/verif/seeded/LOG.jsonl','a') as g: g.write(open('/tmp/last.json').read()+'\n')
