#!/usr/bin/env python3
"""Automatic mutation of the definitions of the model.
usage: mutate.py WORKER NWORKERS PER_DEF SEED OUT [file-prefix...]
Edits one definition at a time in a scratch copy (/tmp/mutN), rebuilds everything that depends on it, and reports the
mutants under which everything still builds (survivors)."""
import sys, re, os, subprocess, random, json, time
w,n,per,seed,out=int(sys.argv[1]),int(sys.argv[2]),int(sys.argv[3]),int(sys.argv[4]),sys.argv[5]
prefixes=sys.argv[6:]
SCR=f'/tmp/mut{w}'
os.makedirs(SCR,exist_ok=True)
subprocess.run(f'rsync -a --delete /verif/lean/ {SCR}/lean/ 2>/dev/null || (rm -rf {SCR}/lean && cp -a /verif/lean {SCR}/lean)',shell=True)
R=f'{SCR}/lean'
subs=[(r'(?<![<≤:|\-=\w])<(?![<|\-=$>*;])','≤'),('≤','<'),('≠','='),(r'(?<=\s)> ','≥ '),('≥','>'),
 (r'\btrue\b','false'),(r'\bfalse\b','true'),('∧','∨'),('∨','∧'),('&&(?!&)','||'),(r'(?<!\|)\|\|(?!\|)','&&'),
 (r'(?<=\s)\+ (?=[\w(])','- '),(r'(?<=\s)- (?=[\w(])','+ '),(r'(?<=[\w)]) \+ 1\b',''),(r'(?<=[\w)]) - 1\b',''),
 (r'(?<![\w.])(\d+)(?![\w.])',lambda m:str(int(m.group(1))+1)),(r'\|\|\|','&&&'),('&&&','|||'),(r'\.drop\b','.take'),(r'\.take\b','.drop'),
 (r'\bsome\b \(?\w','__'), (r'\s\+\+ \[[^\]]*\]',''),(r'\.isSome','.isNone'),('∉','∈'),('∈','∉'),(r' % ',' / '),(r' / ',' % '),(r'\.erase \w+',''),
 (r':= s\.(\w+) ',None),(r'!(?=[\w(])',''),('∀','∃')]
subs=[(a,b) for a,b in subs if b is not None and b!='__']
defre=re.compile(r'^(?:@\[[^\]]*\]\s*)?(?:private\s+|protected\s+|noncomputable\s+)*(?:def|abbrev)\s+(\S+)')
top=re.compile(r'^(?:@\[|private|protected|noncomputable|def|abbrev|theorem|lemma|example|instance|structure|inductive|namespace|end|section|variable|open|/-|#|set_option|deriving|termination_by|decreasing_by|macro|local|attribute|mutual)\b|^(/-|@\[)')
def blocks(src):
    lines=src.split('\n'); i=0; res=[]
    while i<len(lines):
        m=defre.match(lines[i])
        if m:
            j=i+1
            while j<len(lines) and not top.match(lines[j]) and not (lines[j].strip()=='' and (j+1>=len(lines) or top.match(lines[j+1]) or True)): j+=1
            res.append((m.group(1),i,j)); i=j
        else: i+=1
    return lines,res
def mutants(lines,b):
    name,i,j=b
    res=[]
    for k in range(i,j):
        l=lines[k]
        code=l.split('--')[0]
        start=0
        if k==i:
            p=code.find(':=')
            if p<0: continue
            start=p+2
        for a,r in subs:
            for m in re.finditer(a,code):
                if m.start()<start: continue
                rep=r(m) if callable(r) else r
                res.append((k,l[:m.start()]+rep+l[m.end():],f'{m.group(0)}→{rep}'))
    return res
files=[]
for d,_,fs in os.walk('/verif/lean/Verif'):
    for f in fs:
        p=os.path.relpath(os.path.join(d,f),'/verif/lean')
        if p.endswith('.lean') and (not prefixes or any(p.startswith('Verif/'+x) for x in prefixes)): files.append(p)
files.sort()
# reverse dependencies
imp={}
for d,_,fs in os.walk('/verif/lean/Verif'):
    for f in fs:
        p=os.path.relpath(os.path.join(d,f),'/verif/lean'); mod=p[:-5].replace('/','.')
        imp[mod]=[x for x in re.findall(r'^import (Verif\.\S+)',open('/verif/lean/'+p).read(),re.M)]
def rdeps(m):
    s={m}; ch=True
    while ch:
        ch=False
        for k,v in imp.items():
            if k not in s and any(x in s for x in v): s.add(k); ch=True
    return sorted(s)
done=set()
if os.path.exists(out):
    for l in open(out):
        d=json.loads(l); done.add((d['file'],d['line'],d['new']))
idx=0
for f in files:
    src=open('/verif/lean/'+f).read()
    lines,bs=blocks(src)
    for b in bs:
        rnd=random.Random(f'{seed}{f}{b[0]}')
        ms=mutants(lines,b)
        rnd.shuffle(ms)
        for (k,new,what) in ms[:per]:
            idx+=1
            if idx%n!=w: continue
            if (f,k+1,new) in done: continue
            nl=list(lines); nl[k]=new
            p=f'{R}/{f}'
            open(p,'w').write('\n'.join(nl))
            t=time.time()
            mod=f[:-5].replace('/','.')
            try:
                r=subprocess.run(['timeout','400','lake','build']+rdeps(mod),cwd=R,capture_output=True,text=True)
                o=r.stdout+r.stderr
                errs=re.findall(r'error: (\S+?\.lean):(\d+):',o)
                if r.returncode==0: res='SURVIVED'
                elif r.returncode==124: res='timeout'
                else:
                    # does the definition itself still elaborate?
                    res='caught'
                    if errs and errs[0][0]==f and all(b[1]<int(x[1])<=b[2] for x in errs if x[0]==f): res='invalid'
            finally:
                open(p,'w').write(src)
            with open(out,'a') as h: h.write(json.dumps({'file':f,'def':b[0],'line':k+1,'what':what,'old':lines[k],'new':new,'res':res,'t':round(time.time()-t)},ensure_ascii=False)+'\n')
print('done',w)
