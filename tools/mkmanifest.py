#!/usr/bin/env python3
"""Regenerates MANIFEST.json: theorem names are collected from lean/Verif/Props/*.lean by their Cxx_ prefix,
statuses and notes from tools/notes.json."""
import re,glob,json,os
root=os.path.dirname(os.path.dirname(os.path.abspath(__file__)))
thm={}
for f in sorted(glob.glob(root+'/lean/Verif/Props/*.lean')):
    src=open(f).read()
    ns=re.search(r'^namespace (\S+)',src,re.M).group(1)
    for m in re.finditer(r'^theorem ((C\d\d+)_\w+)',src,re.M):
        thm.setdefault(m.group(2),[]).append(ns+'.'+m.group(1))
notes=json.load(open(root+'/tools/notes.json'))
props=[json.loads(l) for l in open(root+'/properties.jsonl')]
out=[]
for p in props:
    i=p['id']
    t=thm.get(i,[])
    if not t and i not in notes: print('missing',i); continue
    n=notes.get(i,{})
    st=n.get('status') or ('partial' if any(x.endswith('_partial') for x in t) else 'proved')
    out.append({'property':i,'status':st,'theorems':t,'note':n.get('note','')})
extra=set(thm)-{p['id'] for p in props}
if extra: print('theorems without property',extra)
json.dump({'claims':out},open(root+'/MANIFEST.json','w'),indent=1)
print(len(out),'claims',sum(len(c['theorems']) for c in out),'theorems')
