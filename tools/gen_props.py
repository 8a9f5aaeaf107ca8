#!/usr/bin/env python3
"""Source of properties.jsonl: one tuple per property (id,title,statement,quantifier,why,anchors)."""
import json
P=[]
def p(i,t,s,q,w,a): P.append(dict(id=i,title=t,statement=s,quantifier=q,why_tests_cant=w,anchors=a))
exec(open(__file__.replace('gen_props.py','props_data.py')).read())
with open('/verif/properties.jsonl','w') as f:
    for x in P: f.write(json.dumps(x,ensure_ascii=False)+"\n")
print(len(P))
import os,sys
for x in P:
    for a in x['anchors']:
        f=a.split(':')[0]
        if not os.path.exists('/repo/'+f): print('MISSING',x['id'],f)
