#!/usr/bin/env python3
"""Write AXIOMS.md: the axioms of every theorem of the manifest, as printed by Lean (run in /verif after `lake build`)."""
import json,subprocess,re,tempfile,os
m=json.load(open('/verif/MANIFEST.json'))
names=[t for c in m['claims'] for t in c['theorems']]
f=tempfile.NamedTemporaryFile('w',suffix='.lean',delete=False)
f.write('import Verif\n'+''.join(f'#print axioms {t}\n' for t in names)); f.close()
out=subprocess.run(['lake','env','lean',f.name],cwd='/verif/lean',capture_output=True,text=True).stdout
out=re.sub(r'\n\s+',' ',out)
d={}
for l in out.split('\n'):
    x=re.match(r"'(.*)' (depends on axioms: \[(.*)\]|does not depend on any axioms)",l)
    if x: d[x.group(1)]=x.group(3) or 'none'
assert set(names)<=set(d),len(set(names)-set(d))
assert all(set(v.split(', '))<={'propext','Classical.choice','Quot.sound','none'} for v in d.values())
with open('/verif/AXIOMS.md','w') as o:
    o.write('# Axioms of the theorems in MANIFEST.json (output of `#print axioms`, generated by tools/axioms.py)\n\n')
    for v in ['none','propext','Quot.sound','propext, Quot.sound','propext, Classical.choice, Quot.sound']:
        ts=[t for t in names if d[t]==v]
        o.write(f'## {v} ({len(ts)})\n\n'+'\n'.join('* '+t for t in ts)+'\n\n')
print(len(names),'theorems')
