#!/usr/bin/env python3
"""Seeded-bug runner.  usage: seed.py SEEDFILE...   (each defines SEEDS, a list of dicts
 {file, definition, old, new, edit, claim, targets, expect?}).
Copies lean/ to /tmp/scratch, applies one edit, builds the targets, records which theorems fail."""
import sys, json, subprocess, shutil, os, re, importlib.util
SCR='/tmp/scratch/lean'
os.makedirs('/tmp/scratch',exist_ok=True)
subprocess.run(['rsync','-a','--delete','/verif/lean/',SCR+'/'],check=False) if shutil.which('rsync') else (shutil.rmtree(SCR,ignore_errors=True), subprocess.run(['cp','-a','/verif/lean',SCR]))
def decl_at(path,line):
    name=None; ns=[]
    for i,l in enumerate(open(path),1):
        if i>line: break
        m=re.match(r'\s*namespace\s+(\S+)',l)
        if m: ns.append(m.group(1))
        m=re.match(r'(?:@\[[^\]]*\]\s*)?(?:private\s+|protected\s+|noncomputable\s+)*(theorem|lemma|def|example|instance|structure|inductive)\s*(\S*)',l)
        if m: name=(m.group(1)+' ' if m.group(1)!='theorem' else '')+(m.group(2) if m.group(1)!='example' else '(concrete case)')
    return name
def deps(root):
    # all modules importing (transitively) the edited one -> built by targets
    pass
LOG='/verif/seeded/LOG.jsonl'
done=set()
if os.path.exists(LOG):
    for l in open(LOG):
        if l.strip():
            d=json.loads(l); done.add((d['definition'],d['edit']))
weak=0
for sf in sys.argv[1:]:
    spec=importlib.util.spec_from_file_location('s',sf); mod=importlib.util.module_from_spec(spec); spec.loader.exec_module(mod)
    for s in mod.SEEDS:
        if (s['definition'],s['edit']) in done and not s.get('redo'): continue
        p=f"{SCR}/Verif/{s['file']}"
        src=open(p).read()
        if src.count(s['old'])!=1:
            print('!! pattern count',src.count(s['old']),s['definition'],s['edit']); continue
        open(p,'w').write(src.replace(s['old'],s['new']))
        try:
            r=subprocess.run(['lake','build']+s['targets'],cwd=SCR,capture_output=True,text=True)
            out=r.stdout+r.stderr
            failed=[]
            for m in re.finditer(r'error: (\S+?\.lean):(\d+):',out):
                n=decl_at(os.path.join(SCR,m.group(1)),int(m.group(2)))
                n=f"{m.group(1).replace('Verif/','').replace('.lean','')}: {n}"
                if n not in failed: failed.append(n)
            # modules not built because a dependency failed
            blocked=[]
        finally:
            open(p,'w').write(src)
        if not failed:
            weak+=1; print('WEAK:',s['definition'],'|',s['edit'], r.returncode)
            if not s.get('tightened') : continue
        else: print('ok',s['definition'],'|',s['edit'],'->',len(failed),failed[:3])
        with open(LOG,'a') as f:
            f.write(json.dumps({'definition':s['definition'],'file':'lean/Verif/'+s['file'],'edit':s['edit'],'claim':s['claim'],'failed':failed[:12],'tightened':s.get('tightened',[])})+'\n')
print('weak',weak)
