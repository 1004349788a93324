"""Merge the killed mutants of /tmp/am/results.jsonl into seeded/LOG.jsonl."""
import json
p='/verif/seeded/LOG.jsonl'
L=[json.loads(l) for l in open(p)]
seen={(l['definition'],l['edit']) for l in L}
n=0
with open(p,'a') as f:
    for l in open('/tmp/am/results.jsonl'):
        r=json.loads(l)
        if r['status']!='killed' or (r['definition'],r['edit']) in seen: continue
        seen.add((r['definition'],r['edit'])); n+=1
        f.write(json.dumps({"definition":r['definition'],"file":"Verif/Model/"+r['file'],"edit":r['edit'],"claim_broken":"what "+str(r['theorem'])+" says of "+r['definition'],"theorems_failed":[r['theorem']],"theorems_tightened":[]},ensure_ascii=False)+'\n')
print(n)
