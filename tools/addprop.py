"""usage: python3 addprop.py < json lines of {id,title,statement,quantifier,why_tests_cant,anchors,status?,note}"""
import json,sys
notes=open('/verif/tools/notes.py').read().rstrip()
assert notes.endswith('}')
notes=notes[:-1]
out=[]
for l in sys.stdin:
    l=l.strip()
    if not l: continue
    d=json.loads(l)
    st=d.pop('status',None); note=d.pop('note','')
    out.append(json.dumps(d,ensure_ascii=False))
    notes+=f'{json.dumps(d["id"])}:({json.dumps(st) if st else "None"},{json.dumps(note,ensure_ascii=False)}),\n'
open('/verif/tools/notes.py','w').write(notes+'}\n')
open('/verif/properties.jsonl','a').write('\n'.join(out)+'\n')
