#!/usr/bin/env python3
"""Apply edits ("wrong programs") to a scratch copy of the Lean model and rebuild.

usage: mutate.py EDITS.py RESULTS.jsonl
EDITS.py defines M = [(id, file under Verif/, old text, new text, claim, what is wrong)].
Each edit is applied alone to a fresh copy; the result says which theorems no longer build.
"""
import json, os, re, shutil, subprocess, sys, bisect, time
SRC=os.environ.get('MUT_SRC','/verif/lean'); WORK=os.environ.get('MUT_WORK','/tmp/mut/work')
def decl_at(path, line):
    names=[]; 
    for i,l in enumerate(open(path),1):
        m=re.match(r'\s*(?:@\[[^\]]*\]\s*)?(?:private |protected |noncomputable )*(theorem|lemma|def|abbrev|instance|structure|example)\s*([^\s:({\[]*)',l)
        if m: names.append((i,(m.group(2) or m.group(1))))
    k=bisect.bisect_right([n[0] for n in names],line)-1
    return names[k][1] if k>=0 else '?'
def deps():
    d={}
    for root,_,fs in os.walk(WORK+'/Verif'):
        for f in fs:
            if f.endswith('.lean'):
                p=os.path.join(root,f); mod=os.path.relpath(p,WORK)[:-5].replace('/','.')
                d[mod]=re.findall(r'^import (Verif\.\S+)',open(p).read(),re.M)
    return d
def run(mut):
    id_,file,old,new,claim,what=mut
    shutil.rmtree(WORK,ignore_errors=True)
    shutil.copytree(SRC,WORK,symlinks=True)
    p=f'{WORK}/Verif/{file}'
    s=open(p).read()
    if s.count(old)!=1:
        return dict(id=id_,status='BADEDIT',count=s.count(old))
    open(p,'w').write(s.replace(old,new))
    t=time.time()
    r=subprocess.run(['lake','build'],cwd=WORK,capture_output=True,text=True)
    out=r.stdout+r.stderr
    errs=re.findall(r'error: (Verif/\S+?\.lean):(\d+):\d+: (.*)',out)
    failed=[]; mods=set()
    for f,l,msg in errs:
        nm=decl_at(f'{WORK}/{f}',int(l)); mods.add(f[:-5].replace('/','.'))
        x=f'{f[6:-5]}:{nm}'
        if x not in failed: failed.append(x)
    d=deps(); blocked=set(mods); ch=True
    while ch:
        ch=False
        for m,ds in d.items():
            if m not in blocked and any(x in blocked for x in ds): blocked.add(m); ch=True
    blocked-=mods
    st='survived' if r.returncode==0 else ('killed' if not any(f'Verif/{file}'==f for f,_,_ in errs) else 'MODEL_DOES_NOT_COMPILE')
    return dict(id=id_,file=file,edit=f'{old}  ==>  {new}',claim=claim,what=what,status=st,failed=failed,blocked=sorted(blocked),secs=round(time.time()-t))
if __name__=='__main__':
    ns={}; exec(open(sys.argv[1]).read(),ns)
    done=set()
    if os.path.exists(sys.argv[2]):
        done={json.loads(l)['id'] for l in open(sys.argv[2])}
    for m in ns['M']:
        if m[0] in done: continue
        r=run(m)
        open(sys.argv[2],'a').write(json.dumps(r)+'\n')
        print(r['id'],r['status'],r.get('failed',[])[:4],r.get('secs'),flush=True)
