#!/usr/bin/env python3
"""usage: claim.py C01 proved Ns.thm,Ns.thm2 'note'   -- update MANIFEST.json"""
import json,sys
p='/verif/MANIFEST.json'
try: m=json.load(open(p))
except Exception: m={"claims":[]}
def put(prop,status,thms,note):
    m["claims"]=[c for c in m["claims"] if c["property"]!=prop]
    m["claims"].append({"property":prop,"status":status,"theorems":[t for t in thms.split(',') if t],"note":note})
    m["claims"].sort(key=lambda c:c["property"])
if len(sys.argv)==5: put(*sys.argv[1:])
else:
    for line in sys.stdin:
        line=line.strip()
        if not line: continue
        put(*[x.strip() for x in line.split('|')])
json.dump(m,open(p,'w'),indent=1,ensure_ascii=False)
