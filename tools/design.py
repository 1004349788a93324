#!/usr/bin/env python3
"""Rewrite the generated part of DESIGN.md (status of each property) from properties.jsonl and MANIFEST.json."""
import json
P=[json.loads(l) for l in open('/verif/properties.jsonl')]
M={c['property']:c for c in json.load(open('/verif/MANIFEST.json'))['claims']}
s=open('/verif/DESIGN.md').read()
a,b='<!-- status begin -->','<!-- status end -->'
i,j=s.index(a)+len(a),s.index(b)
rows=['','| id | property | status | what is proved, what is missing |','|---|---|---|---|']
for p in P:
    c=M[p['id']]
    n=len(c['theorems'])
    rows.append('| %s | %s | %s (%d theorems) | %s |'%(p['id'],p['title'].replace('|','\\|'),c['status'],n,c['note'].replace('|','\\|')))
open('/verif/DESIGN.md','w').write(s[:i]+'\n'.join(rows)+'\n'+s[j:])
