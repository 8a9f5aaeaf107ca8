#!/usr/bin/env python3
"""Source of MANIFEST.json."""
import json,re,glob,os
C=[]
def m(prop,status,theorems,note=""): C.append(dict(property=prop,status=status,theorems=theorems,note=note))
exec(open(os.path.join(os.path.dirname(__file__),'manifest_data.py')).read())
# check theorem names exist
names=set()
for f in glob.glob('/verif/lean/Verif/**/*.lean',recursive=True):
    ns=[]
    for l in open(f):
        k=re.match(r'namespace (\S+)',l)
        if k: ns.append(k.group(1))
        k=re.match(r'end (\S+)',l)
        if k and ns and ns[-1]==k.group(1): ns.pop()
        k=re.match(r'(?:private )?theorem (\S+)',l)
        if k: names.add('.'.join(ns+[k.group(1)]))
props=[json.loads(l)['id'] for l in open('/verif/properties.jsonl')]
for c in C:
    for t in c['theorems']:
        if t not in names: print('UNKNOWN THEOREM',c['property'],t)
    if c['property'] not in props: print('UNKNOWN PROPERTY',c['property'])
for p in props:
    if p not in [c['property'] for c in C]: print('NO CLAIM',p)
json.dump({"claims":C},open('/verif/MANIFEST.json','w'),indent=1,ensure_ascii=False)
print(len(C),'claims',sum(len(c['theorems']) for c in C),'theorems')
