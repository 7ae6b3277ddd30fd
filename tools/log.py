#!/usr/bin/env python3
"""Collect the results of tools/mutate.py into seeded/LOG.jsonl, one line per attempt.
usage: log.py RESULTS.jsonl...   (rewrites LOG.jsonl from all result files given)"""
import json, re, sys, os
ROOT='/verif/lean/Verif/'
MAP={'gd':'C41','sq':'C40','op01':'C43','op02':'C43','op03':'C43','op04':'C84','op08':'C44','op09':'C44','op10':'C44','op11':'C45','op12':'C45',
 'op13':'C48','op14':'C46','op15':'C46','op16':'C46','op17':'C43','cv01':'C10','cv02':'C10','cv03':'C10','cv04':'C10','cv05':'C08','cv06':'C08',
 'cv07':'C08','cv08':'C08','cv09':'C09','cv10':'C09','cv11':'C09','cv12':'C10','ca05':'C01','ca06':'C01','ca07':'C04','ca08':'C04','ca12':'C03','ca14':'C05',
 'me01':'C06','me02':'C06','me03':'C06','me05':'C06','nm01':'C12','nm02':'C11','nm03':'C12','nm06':'C12','nm07':'C12','nm08':'C13','nm09':'C13','nm10':'C13',
 'nm17':'C13','nm11':'C14','nm12':'C14','nm15':'C14','nm18':'C14','nm13':'C14','nm14':'C14','nm16':'C14','gr01':'C07','di01':'C43','pw14':'C80','pw15':'C80',
 'bfs09':'C18','bfs10':'C20','bfs11':'C19','bfs12':'C20','bfs13':'C22','bfs14':'C21','bfs15':'C21','bfs16':'C20','bfs19':'C23','bfs20':'C24','bfs21':'C23',
 'ego01':'C25','ego02':'C47','ego03':'C47','ego04':'C25','ego05':'C25','cl03':'C36','cl04':'C37','cl05':'C37','cl07':'C38','cl08':'C38','cl09':'C39','cl10':'C39','cl11':'C36','cl12':'C36'}
TIGHT={'op04':['operators_reject_multigraphs'],'ut11':['normalize_chunksize_unit'],'ut13':['normalize_chunksize_unit'],'ut14':['normalize_chunksize_unit'],
 'cv08':['vector_to_list_values'],'pw14':['katz_beta_incomplete'],'mp04':['row_maps_eq_sound'],'mp12':['row_maps_eq_sound','nodemap_eq_modes'],
 'ef01':['calls_do_not_modify_existing_objects (explicit lists mayShare/mayOverwrite)'],'ef02':['calls_do_not_modify_existing_objects (explicit lists mayShare/mayOverwrite)'],
 'ef11':['calls_do_not_modify_existing_objects (explicit lists mayShare/mayOverwrite)']}
SAME={'c4','r1','bf12','fw01','fw02','gd02','gd05','sm20','sm26','ut10','ca01','cv05','gr01','op18b','bfp01'}
FIX={'cv10','cv11','pw12','cw02','in10'}
OUT={'ef09':'only changes vectors local to the call: no claim is false of it','ef10':'changes a vector after yielding it; not claimed by C90 when this was run'}
def enclosing(file,old):
    p=ROOT+file
    if not os.path.exists(p): return file
    s=open(p).read(); k=s.find(old.split('  ==>  ')[0])
    if k<0:
        first=max((l for l in old.split('\n')),key=len); k=s.find(first)
    if k<0: return '(text changed since)'
    m=None
    for m in re.finditer(r'^(?:noncomputable )?(?:def|structure|abbrev|instance|inductive) (\S+)',s,re.M):
        if m.start()>k+len(old): break
        if m.start()<=k+ (len(old) if old.lstrip().startswith('def') else 0): name=m.group(1)
    return name if m else '?'
def main(files):
    out=[]
    for f in files:
        for l in open(f):
            d=json.loads(l); i=d['id']
            if d['status'] in('BADEDIT','MODEL_DOES_NOT_COMPILE','NONE'): continue
            old=d['edit'].split('  ==>  ')[0]
            c=d['claim'] if ':' in i else MAP.get(i) or MAP.get(re.sub(r'b$','',i)) or MAP.get(re.match(r'[a-z]+',i).group(0)) or d['claim']
            r={'id':i,'definition':f"{d['file']}: {d.get('def') or enclosing(d['file'],old)}",'edit':d['edit'],'bug':d['what'],'claim':c,
               'outcome':'some theorem fails' if d['status']=='killed' else 'everything still proves',
               'theorems_failed':d.get('failed',[]),'modules_no_longer_built':d.get('blocked',[]),'theorems_tightened':TIGHT.get(i,[d['tight']] if 'tight' in d else [])}
            if d['status']!='killed' or i in ('ef01','ef02','ef11'):
                if 'note' in d: r['note']=d['note']
                elif 'tight' in d: r['note']='too weak when run: see theorems_tightened; run again as '+'au_'+i[2:].replace(':','_')+'b'
                elif i in SAME: r['note']='not a wrong program: the edited program gives the same results'
                elif i in OUT: r['note']=OUT[i]
                elif i in TIGHT: r['note']='too weak: tightened, see theorems_tightened; run again as '+i+'b' if i[:2]!='ef' else 'first survived (the translator, not a theorem, classified the calls); tightened, then killed'
                else: r['note']='survivor'
            elif i in SAME: r['note']='the edited program gives the same results; only a proof step about the changed text fails'
            elif i in FIX: r['note']='a repair of a defect: the theorem that states the defect fails, as it should'
            out.append(r)
    with open('/verif/seeded/LOG.jsonl','w') as g:
        for r in out: g.write(json.dumps(r,ensure_ascii=False)+'\n')
    print(len(out),[r['id'] for r in out if r.get('note')=='survivor'],[r['id'] for r in out if '?' in r['definition'] or 'changed' in r['definition']])
main(sys.argv[1:])
