#!/usr/bin/env python3
"""Systematic edits: for every definition of the model, try small textual edits until PER compiled ones were judged.

usage: automutate.py RESULTS.jsonl [--all | NAME...]     (MUT_SRC: built copy of /verif/lean; MUT_WORK: scratch)
Definitions that already have a line in RESULTS.jsonl are skipped.
"""
import glob, json, os, re, shutil, subprocess, sys, time, random, signal
sys.path.insert(0,os.path.dirname(__file__))
import mutate
SRC=os.environ.get('MUT_SRC','/tmp/mut/src'); WORK=os.environ.get('MUT_WORK','/tmp/mut/awork')
mutate.WORK=WORK
PER=int(os.environ.get('MUT_PER','2')); SEED=os.environ.get('MUT_SEED',''); TAG=os.environ.get('MUT_TAG','a')
# MUT_SKIP: earlier results whose edits are not tried again
SKIP={(json.loads(l)['file'],json.loads(l).get('edit')) for f in os.environ.get('MUT_SKIP','').split() for l in open(f)}
OPS=[(r'\breduceRow\b','reduceCol'),(r'\breduceCol\b','reduceRow'),(r'\bvxm\b','mxvT'),(r'\btranspose (\w+|\([^()]*\))',r'\1'),
 (r'\boffdiag (\w+(?:\.\w+)?)',r'\1'),(r'\bvnot (\([^()]*\))',r'\1'),(r'\bmnot (\([^()]*\))',r'\1'),(r'&&','||'),(r'\|\|','&&'),
 (r'∧','∨'),(r'∨','∧'),(r'(?<![=:<>≤])<(?![-|=])','≤'),(r'≤','<'),(r'(?<!=)>(?![>=])','≥'),(r'≥','>'),
 (r'\btrue\b','false'),(r'\bfalse\b','true'),(r'\bfirst\b','second'),(r'\bsecond\b','first'),(r'\bmax\b','min'),(r'\bmin\b','max'),
 (r'\bvmul\b','vadd'),(r'\bmmul\b','madd'),(r' \+ 1\b',''),(r' \+ 1\b',' + 2'),(r' - 1\b',''),(r' - 1\b',' - 2'),
 (r' \+ (?!1\b)',' - '),(r' \* ',' + '),(r' - ',' + '),(r' / ',' * '),
 (r'\bif (?!let|h :)([^\n]*?) then',r'if ¬ (\1) then'),(r' = ',' ≠ '),(r' != ',' == '),(r' == ',' != '),(r'≠','='),
 (r'\.isSome\b','.isNone'),(r'\.isNone\b','.isSome'),(r'\.any\b','.all'),(r'\.all\b','.any'),
 (r'\.keyError\b','.typeError'),(r'\.(valueError|typeError|zeroDivision|indexError|attributeError|nodeNotFound|networkXError)\b','.keyError'),
 (r'getD 0','getD 1'),(r'\bsome 0\b','some 1'),(r'(?<=[ (\[])0(?=[ )\],\n])','1'),(r'(?<=[ (\[])1(?=[ )\],\n])','2'),(r'(?<=[ (\[])2(?=[ )\],\n])','1'),
 (r'\btriu\b','tril'),(r'\btril\b','triu'),(r'\btriu1\b','tril1'),(r'\btril1\b','triu1'),(r'\bcountRow (\w+(?:\.\w+)?)',r'countRow (transpose \1)'),
 (r'\bcountRow \(transpose (\w+)\)',r'countRow \1'),(r'\bmxm (\S+ \S+|\(· \+ ·\) \S+) (\w+) (\w+)',r'mxm \1 \3 \2'),(r'\bnvals\b','(fun v => nvals v + 1)'),
 (r'\bG\.A\b','(transpose G.A)'),(r'\bA\b(?! :)','(transpose A)'),(r'\breverse\b','tail'),(r'\bid\b','ID'),(r'\bList\.range n\b','List.range (n+1)'),
 (r'\bfun (\w+) (\w+) =>',r'fun \2 \1 =>'),(r'\bG\.directed\b','(!G.directed)'),(r'\bG\.multi\b','(!G.multi)'),(r'\.fst\b|\.1\b','.2'),(r'\.snd\b|\.2\b','.1'),
 (r'\bvassignR\b','vassign'),(r'\bnone\b','(some default)'),(r'\.erase\b','.filter (· = ·)'),(r' \+\+ (\w+)',r''),(r'(\w+) \+\+ ',r''),(r'\bzip\b','zip'),
 (r'\((\w+), (\w+)\)',r'(\2, \1)'),(r'⟨(\w+), (\w+)⟩',r'⟨\2, \1⟩'),(r'(?<=[a-z]) (\w) (\w)(?=[ )\n])',r' \2 \1')]
def defs(path):
    s=open(path).read()
    for m in re.finditer(r'^(?:@\[[^\]]*\] *)?(?:noncomputable |private |protected )*def ([^\s:({\[]+).*?(?=\n\n|\Z)',s,re.M|re.S):
        yield m.group(1),m.start(),m.end()
def cands(s,a,b,rng):
    body=s[a:b]; k=body.find(':=')
    m=re.search(r'\n  \|',body)
    if m and (k<0 or m.start()<k): k=m.start()
    if k<0: return []
    out=[]
    for pat,rep in OPS:
        for m in re.finditer(pat,body[k:]):
            x=m.expand(rep) if not callable(rep) else rep(m)
            if x==m.group(0): continue
            p=a+k+m.start(); q=a+k+m.end()
            out.append((p,q,x,pat))
    rng.shuffle(out)
    seen={}; res=[]
    for c in out:   # different operators first
        if seen.setdefault(c[3],0)==0: res.append(c)
        seen[c[3]]+=1
    res+= [c for c in out if c not in res]
    return res[:12]
def build(target=None,grace=None):
    t=time.time(); P=subprocess.Popen(['lake','build']+([target] if target else []),cwd=WORK,stdout=subprocess.PIPE,stderr=subprocess.STDOUT,text=True,preexec_fn=os.setsid)
    out=[]; first=None
    import threading
    def rd():
        for l in P.stdout: out.append(l)
    th=threading.Thread(target=rd); th.start()
    while P.poll() is None:
        time.sleep(1)
        if grace and first is None and any(l.startswith('error: Verif/') for l in out): first=time.time()
        if (first and time.time()-first>grace) or time.time()-t>1500:
            os.killpg(P.pid,signal.SIGKILL); break
    P.wait(); th.join()
    return P.returncode,''.join(out),time.time()-t
def main():
    res=sys.argv[1]; names=set(sys.argv[2:])-{'--all'}
    done=set()
    if os.path.exists(res): done={(json.loads(l)['file'],json.loads(l)['def']) for l in open(res)}
    work=[]
    for p in sorted(glob.glob(SRC+'/Verif/Model/*.lean')):
        if p.endswith('EffectsTable.lean'): continue
        f=os.path.relpath(p,SRC+'/Verif')
        for n,a,b in defs(p):
            if names and n not in names and f+':'+n not in names: continue
            if (f,n) in done: continue
            work.append((f,n,a,b))
    random.Random('7'+SEED).shuffle(work)
    print(len(work),'definitions',flush=True)
    for f,n,a,b in work:
        s=open(f'{SRC}/Verif/{f}').read(); rng=random.Random(f+n+SEED)
        good=0
        for p,q,x,_ in cands(s,a,b,rng):
            if good>=PER: break
            new=s[:p]+x+s[q:]
            l0=s.rfind('\n',0,p)+1; l1=s.find('\n',q)
            edit=s[l0:l1].strip()+'  ==>  '+(s[l0:p]+x+s[q:l1]).strip()
            if (f,edit) in SKIP: continue
            shutil.rmtree(WORK,ignore_errors=True); shutil.copytree(SRC,WORK,symlinks=True)
            open(f'{WORK}/Verif/{f}','w').write(new)
            mod='Verif.'+f[:-5].replace('/','.')
            rc,out,_=build(mod)
            if rc!=0: continue
            rc,out,secs=build(None,45)
            errs=re.findall(r'error: (Verif/\S+?\.lean):(\d+):\d+: (.*)',out)
            failed=[]; mods=set()
            for ef,l,msg in errs:
                nm=mutate.decl_at(f'{WORK}/{ef}',int(l)); mods.add(ef[:-5].replace('/','.'))
                y=f'{ef[6:-5]}:{nm}'
                if y not in failed: failed.append(y)
            inmodel=any(m.startswith('Verif.Model') for m in mods)
            if inmodel: continue
            good+=1
            st='survived' if rc==0 else 'killed'
            if rc!=0 and not errs: st='TIMEOUT'
            d=mutate.deps(); blocked=set(mods); ch=True
            while ch:
                ch=False
                for m,ds in d.items():
                    if m not in blocked and any(z in blocked for z in ds): blocked.add(m); ch=True
            r=dict(id=f'{TAG}:{n}:{good}',file=f,edit=edit,claim='',what=f'in {n}',status=st,failed=failed,blocked=sorted(blocked-mods),secs=round(secs))
            r['def']=n
            open(res,'a').write(json.dumps(r,ensure_ascii=False)+'\n')
            print(f,n,st,edit[:150],failed[:3],round(secs),flush=True)
        if good==0:
            open(res,'a').write(json.dumps(dict(id=f'{TAG}:{n}:0',file=f,**{'def':n},status='NONE'))+'\n')
main()
