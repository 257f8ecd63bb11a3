#!/usr/bin/env python3
"""Write /tmp/deps.txt: each manifest theorem followed by every Lair constant it depends on (used by seeded/run.py). Needs a built lean/."""
import json,subprocess,shutil
m=json.load(open('/verif/MANIFEST.json'))
open('/tmp/names.txt','w').write("\n".join(t for c in m['claims'] for t in c['theorems']))
shutil.copy('/verif/tools/deps.in','/tmp/deps.lean')
r=subprocess.run(['lake','env','lean','/tmp/deps.lean'],cwd='/verif/lean',capture_output=True,text=True)
print(r.stdout[:300],r.stderr[:300],sum(1 for _ in open('/tmp/deps.txt')))
