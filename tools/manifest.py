import json,re,glob,subprocess
names=set()
for f in glob.glob('/verif/lean/Verif/**/*.lean',recursive=True):
    t=open(f).read()
    for m in re.finditer(r'^(?:@\[[^\]]*\]\s*)?theorem\s+(\S+)',t,re.M): names.add(m.group(1))
NS='Pawpaw.Props.'
def cl(i):
    ths=sorted(n for n in names if n.startswith(i+'_'))
    return ths
exec(open('/verif/tools/notes.py').read())
claims=[]
props=[json.loads(l) for l in open('/verif/properties.jsonl')]
for p in props:
    i=p['id']; ths=cl(i)
    st,note=NOTES.get(i,(None,''))
    if not ths and st is None: continue
    if st is None: st='partial' if any(n.endswith('_partial') or n.endswith('_violated') for n in ths) else 'proved'
    claims.append(dict(property=i,status=st,theorems=[NS+n for n in ths],note=note))
json.dump(dict(claims=claims),open('/verif/MANIFEST.json','w'),indent=1,ensure_ascii=False)
from collections import Counter
print(Counter(c['status'] for c in claims), [p['id'] for p in props if p['id'] not in {c['property'] for c in claims}])
