#!/usr/bin/env python3
"""Automatic mutants: one or more edits per model definition, built in a scratch copy until the first theorem fails.
usage: automut.py SEED [files…]; results go to /tmp/am/results.jsonl (killed ones are later merged into seeded/LOG.jsonl)"""
import sys, os, re, json, subprocess, random, glob, signal, time
SRC='/verif/lean'; D='/tmp/am/w'; P='/tmp/am/p'
seed=int(sys.argv[1]); only=sys.argv[2:]
rnd=random.Random(seed)
os.makedirs('/tmp/am',exist_ok=True)
subprocess.run(f'rm -rf {P} {D}; cp -a {SRC} {P}; cp -a {P} {D}',shell=True,check=True)
declre=re.compile(r'^(?:@\[.*\] *)?(?:private |protected |partial )?def\s+([^\s:({\[]+)',re.M)
anydecl=re.compile(r'^(?:@\[.*\] *)?(?:private |protected )?(theorem|example|def|instance|abbrev)\s*([^\s:({\[]*)')
RULES=[(r' < ',' ≤ '),(r' ≤ ',' < '),(r' > ',' ≥ '),(r' ≥ ',' > '),(r' \+ 1\b',' + 2'),(r' - 1\b',' - 2'),(r'\btrue\b','false'),(r'\bfalse\b','true'),
 (r' && ',' || '),(r' \|\| ',' && '),(r' ∧ ',' ∨ '),(r' ∨ ',' ∧ '),(r'\.reverse\b',''),(r'\.start\b','.stop'),(r'\.stop\b','.start'),
 (r'\.take\b','.drop'),(r'\.drop\b','.take'),(r' = ',' ≠ '),(r' ≠ ',' = '),(r' == ',' != '),(r' != ',' == '),(r'\b0\b','1'),(r'\b1\b','0'),
 (r"'(.)'",None),(r'"([^"\n]*)"',None),(r'\bnone\b','(some default)'),(r'\.isNone\b','.isSome'),(r'\.isSome\b','.isNone'),(r'\.any\b','.all'),(r'\.all\b','.any'),
 (r'\bif ([^\n]*?) then\b','if ¬ (\\1) then'),(r'if (!?)([a-z][\w.]*) then','if !\\1\\2 then'),(r'\+\+ \[[^\]\n]*\]',''),(r'\bmax\b','min'),(r'\bmin\b','max'),
 (r'\.head\?','.getLast?'),(r'\.getLast\?','.head?'),(r'\.valueError\b','.typeError'),(r'\.typeError\b','.valueError'),(r'\.indexError\b','.keyError'),(r'\.tail\b',''),
 (r'\.fst\b','.snd'),(r'\(x :: xs\)','(xs)'),(r' \+ ',' - '),(r' - ',' + '),(r'\.filter\b','.takeWhile'),(r'takeWhile','dropWhile'),(r'dropWhile','takeWhile'),(r'find\?','findRev?'),(r'\.error \.\w+','.error .runtimeError')]
def blank(t): # blank comments, keep length
    t=re.sub(r'/-.*?-/',lambda m:re.sub(r'[^\n]',' ',m.group()),t,flags=re.S)
    return re.sub(r'--[^\n]*',lambda m:' '*len(m.group()),t)
def cands(text,a,b):
    bl=blank(text); out=[]
    body=bl[a:b]
    k=body.find(':='); k2=body.find('\n  |')
    s=min([x for x in (k,k2) if x>=0],default=0)
    for pat,rep in RULES:
        for m in re.finditer(pat,body[s:]):
            o=m.group()
            if rep is None:
                if o[0]=="'": n="'#'" if o!="'#'" else "'%'"
                else: n='"'+m.group(1)+'#"'
            else: n=m.expand(rep)
            if o!=n: out.append((a+s+m.start(),o,n))
    return out
def owner(f,line):
    L=open(os.path.join(D,f)).read().split('\n')
    for i in range(line-1,-1,-1):
        m=anydecl.match(L[i])
        if m: return m.group(2) or f'example@{os.path.basename(f)}:{i+1}'
    return f
def build():
    p=subprocess.Popen(['lake','build'],cwd=D,stdout=subprocess.PIPE,stderr=subprocess.STDOUT,text=True,start_new_session=True)
    res=None; t0=time.time()
    for l in p.stdout:
        m=re.match(r'error: (Verif/\S+\.lean):(\d+):',l)
        if m:
            res=('model',None) if '/Model/' in m.group(1) else ('killed',owner(m.group(1),int(m.group(2))))
            break
        if 'Build completed' in l: res=('survived',None)
    try: os.killpg(p.pid,signal.SIGKILL)
    except ProcessLookupError: pass
    p.wait()
    return res or ('unknown',None), time.time()-t0
done=set()
if os.path.exists('/tmp/am/results.jsonl'):
    for l in open('/tmp/am/results.jsonl'):
        d=json.loads(l); done.add((d['file'],d['definition'],d['edit']))
jobs=[]
for f in sorted(glob.glob(P+'/Verif/Model/*.lean')):
    b=os.path.basename(f)
    if only and b not in only: continue
    t=open(f).read(); ds=[(m.start(),m.group(1)) for m in declre.finditer(t)]
    for i,(a,name) in enumerate(ds):
        e=ds[i+1][0] if i+1<len(ds) else len(t)
        c=cands(t,a,e); rnd.shuffle(c)
        if c: jobs.append((b,name,c))
rnd.shuffle(jobs)
for b,name,c in jobs:
    tries=0
    for pos,o,n in c[:6]:
        t=open(f'{P}/Verif/Model/{b}').read()
        line=t[:pos].count('\n')+1
        edit=f'line {line}: {t.split(chr(10))[line-1].strip()!r}: {o!r} -> {n!r}'
        if (b,name,edit) in done: break
        m=t[:pos]+n+t[pos+len(o):]
        open(f'{D}/Verif/Model/{b}','w').write(m)
        (st,th),w=build()
        subprocess.run(f'rm -rf {D}/.lake; cp -a {P}/.lake {D}/.lake; cp -a {P}/Verif/Model/{b} {D}/Verif/Model/{b}',shell=True)
        if st=='model': continue
        print(st,b,name,edit,th,round(w),flush=True)
        open('/tmp/am/results.jsonl','a').write(json.dumps(dict(status=st,file=b,definition=name,edit=edit,theorem=th,wall=w))+'\n')
        break
