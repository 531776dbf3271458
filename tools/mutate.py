#!/usr/bin/env python3
"""Mutation testing of the theorems, in a scratch copy (never in /verif).
usage: mutate.py mutants.json   -- list of {file, old, new, definition, edit, claim, expect:[ids]}
For each mutant: edit the model in the scratch copy, rebuild, replace the proofs of failing declarations by a
placeholder, rebuild until it compiles, and report which property theorems (Cnn_*) now depend on a placeholder."""
import json, os, re, subprocess, shutil, sys
SRC=os.environ.get('SRC','/verif/lean'); W='/tmp/mut/lean'
HOLE='sor'+'ry'
def sync():
    shutil.rmtree(W+'/Verif'); shutil.copytree(SRC+'/Verif',W+'/Verif'); shutil.copy(SRC+'/Verif.lean',W+'/Verif.lean')
def build():
    r=subprocess.run(['lake','build'],cwd=W,capture_output=True,text=True)
    return r.returncode, r.stdout+r.stderr
DECL=re.compile(r'^(private |protected |noncomputable )*(theorem|lemma|example|def|instance|structure|inductive|abbrev)\b')
def decls(lines):
    starts=[i for i,l in enumerate(lines) if DECL.match(l)]
    return starts
def hole(path,line):
    t=open(path).read().split('\n')
    st=[i for i in decls(t) if i<line]
    if not st: return None
    s=st[-1]
    e=len(t)
    for j in range(s+1,len(t)):
        if t[j] and not t[j][0].isspace() and not t[j].startswith('|') and not t[j].startswith('·') : e=j;break
    text='\n'.join(t[s:e])
    m=re.match(r'(?:private |protected |noncomputable )*(\w+)\s+([^\s:({\[]+)?',text)
    kind,name=m.group(1),m.group(2)
    if kind=='example':
        new='example : True := trivial'; name='example'
    elif kind in('theorem','lemma'):
        d=0;k=None
        for i,ch in enumerate(text):
            if ch in '([{⟨': d+=1
            elif ch in ')]}⟩': d-=1
            elif d==0 and (text.startswith(':=',i) or (text.startswith(' where',i) and text[i+6:i+7] in '\n ')):
                if 'let ' in text[max(0,i-60):i] and text.startswith(':=',i) and re.search(r'let \S+ (: [^:]*)?$',text[:i]): continue
                k=i;break
        if k is None: return None
        new=text[:k]+(' := '+HOLE)
    else: return None
    t[s:e]=new.split('\n')+['']
    open(path,'w').write('\n'.join(t))
    return name
def allthms():
    r=[]
    for f in sorted(os.listdir(W+'/Verif/Props')):
        ns='Props.'+f[:-5]
        for m in re.finditer(r'^theorem (C\d\d+_\w+)',open(W+'/Verif/Props/'+f).read(),re.M): r.append((ns,m.group(1)))
    return r
def run(m):
    sync()
    p=W+'/Verif/'+m['file']; s=open(p).read()
    assert s.count(m['old'])>=1, ('no match',m)
    open(p,'w').write(s.replace(m['old'],m['new'],1))
    for f2,o2,n2 in m.get('also',[]):
        q=W+'/Verif/'+f2; s2=open(q).read(); assert s2.count(o2)>=1, ('no match',f2,o2)
        open(q,'w').write(s2.replace(o2,n2,1))
    helpers=[]
    for it in range(12):
        rc,out=build()
        errs={}
        for x in re.finditer(r'error: (Verif/\S+?\.lean):(\d+):(\d+)',out): errs.setdefault(x.group(1),[]).append(int(x.group(2)))
        if rc==0: break
        if not errs: return None,['build failure '+out[-300:]]
        for f,ls in errs.items():
            # handle bottom up so that line numbers stay valid, one per declaration
            done=set()
            t=open(W+'/'+f).read().split('\n'); st=decls(t)
            owners=sorted({max([i for i in st if i<l],default=-1) for l in ls},reverse=True)
            for o in owners:
                n=hole(W+'/'+f,o+1)
                if n is None: return None,['model does not compile: %s:%d'%(f,o+1)]
                helpers.append(n)
    thms=allthms()
    chk=W+'/Chk.lean'
    open(chk,'w').write('import Verif\n'+''.join('#print axioms %s.%s\n'%t for t in thms))
    r=subprocess.run(['lake','env','lean','Chk.lean'],cwd=W,capture_output=True,text=True)
    failed=[]
    for l in re.split(r"\n(?=')",r.stdout):
        mm=re.match(r"'Props\.\w+\.(C\d\d+_\w+)'",l)
        if mm and HOLE in l: failed.append(mm.group(1))
    os.remove(chk)
    return failed,helpers
if __name__=='__main__':
    ms=json.load(open(sys.argv[1]))
    for m in ms:
        try: failed,helpers=run(m)
        except AssertionError as e: print('SKIP',e); continue
        status='?' if failed is None else ('KILLED' if any(any(f.startswith(x) for x in m['expect']) for f in failed) else 'SURVIVED')
        print(status,m['definition'],'|',m['edit'],'|',failed,'| helpers:',helpers,flush=True)
        if failed is not None:
            with open('/tmp/mut/results.jsonl','a') as f:
                f.write(json.dumps({"definition":m['definition'],"edit":m['edit'],"claim_broken":m['claim'],"theorems_failed":failed,"helper_lemmas_failed":helpers,"status":status,"theorems_tightened":[]})+'\n')
