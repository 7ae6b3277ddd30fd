#!/usr/bin/env python3
"""Check the `file.py:a-b` citations in lean/Verif/Model/*.lean: the file must exist, the lines must be inside it, and when the
doc comment names a function of that file in backticks, the cited lines should overlap that function."""
import re,glob,os,ast
R='/repo/graphblas_algorithms'
files=[os.path.relpath(os.path.join(d,f),R) for d,_,fs in os.walk(R) for f in fs if f.endswith('.py') and 'tests' not in d]
def resolve(n, modhint):
    c=[f for f in files if f==n or f.endswith('/'+n)]
    return c
defs={}
for f in files:
    t=ast.parse(open(f'{R}/{f}').read())
    defs[f]=[(n.name,(min([d.lineno for d in n.decorator_list]+[n.lineno])),n.end_lineno) for n in ast.walk(t) if isinstance(n,(ast.FunctionDef,ast.ClassDef))]
bad=0
for m in sorted(glob.glob('/verif/lean/Verif/Model/*.lean')):
    if m.endswith('EffectsTable.lean'): continue
    s=open(m).read()
    for c in re.finditer(r'/-[-!](.*?)-/',s,re.S):
        txt=c.group(1); line=s[:c.start()].count('\n')+1
        for q in re.finditer(r'([\w/]+\.py):((?:\d+(?:-\d+)?)(?:,\s*\d+(?:-\d+)?)*)',txt):
            cand=resolve(q.group(1),m)
            rng=[tuple(int(x) for x in (p.split('-') if '-' in p else (p,p))) for p in re.split(r',\s*',q.group(2))]
            if not cand: print(f'{os.path.basename(m)}:{line} NOFILE {q.group(0)}'); bad+=1; continue
            ok=[f for f in cand if all(a<=b<=sum(1 for _ in open(f"{R}/{f}")) for a,b in rng)]
            if not ok: print(f'{os.path.basename(m)}:{line} OUT {q.group(0)} {cand}'); bad+=1; continue
            names=set(re.findall(r'`(?:[\w.]*\.)?(\w+)\(?[^`]*`',txt))
            hit=False; any_=False
            for f in ok:
                for n,a,b in defs[f]:
                    if n in names:
                        any_=True
                        if any(x<=b and y>=a for x,y in rng): hit=True
            if any_ and not hit: print(f'{os.path.basename(m)}:{line} MISMATCH {q.group(0)} names {sorted(names)[:4]}'); bad+=1
print(bad,'problems')
