"""Generates DESIGN.md from design_head.md, the property and manifest data, the docstrings of the violation theorems and the
axioms printed by Lean (run with --axioms after a build to refresh tools/axioms.json)."""
import sys; sys.path.insert(0,'/verif/tools')
import json,re,glob,sys,subprocess,os
V='/verif'
man=json.load(open(V+'/MANIFEST.json'))['claims']
props={}
for l in open(V+'/properties.jsonl'):
    d=json.loads(l); props[d['id']]=d
names=[]
for c in man:
    for t in c['theorems']:
        if t not in names: names.append(t)
axf=V+'/tools/axioms.json'
if '--axioms' in sys.argv:
    with open('/tmp/ax.lean','w') as f:
        f.write('import Verif\n'+''.join(f'#print axioms {n}\n' for n in names))
    out=subprocess.run(['lake','env','lean','/tmp/ax.lean'],cwd=V+'/lean',capture_output=True,text=True).stdout
    ax={}
    for m in re.finditer(r"'([^']+)' (depends on axioms: \[([^\]]*)\]|does not depend on any axioms)",out):
        ax[m.group(1)]=re.sub(r'\s+',' ',m.group(3) or '')
    missing=[n for n in names if n not in ax]
    if missing: print('no axioms for',missing)
    json.dump(ax,open(axf,'w'),indent=0,sort_keys=True)
ax=json.load(open(axf))
docs={}
where={}
for f in sorted(glob.glob(V+'/lean/Verif/**/*.lean',recursive=True)):
    s=open(f).read()
    for m in re.finditer(r'(?:/--((?:(?!-/).)*?)-/\s*)?theorem (\S+)',s,re.S):
        n=m.group(2).split('.')[-1]
        where.setdefault(n,[]).append(f[len(V+'/lean/'):])
        if m.group(1): docs.setdefault(n,[]).append((f,re.sub(r'\s+',' ',m.group(1)).strip()))
def doc(full):
    n=full.split('.')[-1]
    return docs.get(n,[('','')])[0][1]
from design_how import HOW
o=[open(V+'/tools/design_head.md').read().replace('@@EXTRA_ROWS@@\n','')]
o.append('## 3. Properties: what is modelled, how it is proved, what is missing\n')
o.append('Status as in MANIFEST.json. A *partial* property keeps its full statement in properties.jsonl; the theorems named\n`_partial` and the note say what holds, the theorems named `violation`/`violated` prove that the rest is false of the code.\n')
for c in sorted(man,key=lambda c:c['property']):
    p=props[c['property']]
    o.append(f"### {c['property']} {p['title']} — {c['status']}")
    o.append(f"*Source:* {'; '.join(p['anchors'])}. *How:* {HOW.get(c['property'],'')}")
    if c.get('note'): o.append(f"*Note:* {c['note']}.")
    o.append('*Theorems:* '+', '.join('`'+t.replace('Ltio.','')+'`' for t in c['theorems'])+'\n')
o.append('## 4. Findings: violations proved of the code\n')
for c in sorted(man,key=lambda c:c['property']):
    vs=[t for t in c['theorems'] if 'viol' in t or t.endswith('_ub') or 'violation.' in doc(t)]
    for t in vs:
        o.append(f"- {c['property']} `{t.replace('Ltio.','')}`: {doc(t)}")
o.append('\n## 5. Axioms of each theorem\n')
o.append('Printed by `#print axioms` (`tools/gen_design.py --axioms`). No other axiom occurs.\n')
groups={}
for n in names: groups.setdefault(ax.get(n,'?'),[]).append(n)
for g in sorted(groups,key=lambda g:len(g)):
    o.append(f"**{g or 'none'}** ({len(groups[g])}): "+', '.join('`'+n.replace('Ltio.','')+'`' for n in groups[g])+'\n')
open(V+'/DESIGN.md','w').write('\n'.join(o))
miss=[p for p in props if p not in HOW]
if miss: print('no HOW for',miss)
