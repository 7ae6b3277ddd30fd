import json,re
props={}
for l in open('/verif/properties.jsonl'):
    d=json.loads(l); props[d['id']]=d
claims={}
for l in open('/verif/tools/claims.txt'):
    p=[x.strip() for x in l.split('|',3)]
    if len(p)==4: claims[p[0]]=p
head=open('/verif/tools/design_head.md').read()
rows=[]
for k in sorted(props):
    c=claims[k]
    ths=c[2].split()
    t=', '.join('`'+x+'`' for x in ths)
    rows.append(f"| {k} | {props[k]['title']} | {c[1]} | {t} | {c[3] or 'as stated'} |")
table="| Property | Title | Status | Theorems (namespace `Props`) | Scope, and what is missing |\n|---|---|---|---|---|\n"+"\n".join(rows)
tail=open('/verif/tools/design_tail.md').read()
open('/verif/DESIGN.md','w').write(head+"\n"+table+"\n\n"+tail)
