#!/usr/bin/env python3
"""Regenerates MANIFEST.json from tools/claims.txt and checks that each named theorem exists.
claims.txt lines:  Cnn | status | thm thm ... | note   (status: proved / partial / not_applicable / todo)"""
import json,re,glob,sys
names=set()
for f in glob.glob('/verif/lean/Verif/**/*.lean',recursive=True):
    ns=[]
    for l in open(f):
        m=re.match(r'namespace (\S+)',l)
        if m: ns.append(m.group(1))
        m=re.match(r'end (\S+)',l)
        if m and ns and ns[-1]==m.group(1): ns.pop()
        m=re.match(r'(?:@\[[^\]]*\]\s*)?theorem (\S+)',l)
        if m: names.add('.'.join(ns+[m.group(1)]))
claims=[]
for l in open('/verif/tools/claims.txt'):
    l=l.strip()
    if not l or l[0]=='#': continue
    p,st,th,note=[x.strip() for x in l.split('|',3)]
    th=['Props.'+t for t in th.split()]
    for t in th:
        if t not in names: print('MISSING',p,t)
    if st=='todo': continue
    claims.append(dict(property=p,status=st,theorems=th,note=note))
json.dump({'claims':claims},open('/verif/MANIFEST.json','w'),indent=1)
print(len(claims),'claims', sum(len(c['theorems']) for c in claims),'theorems')
