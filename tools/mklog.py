#!/usr/bin/env python3
"""Write seeded/LOG.jsonl from the recorded runs (/tmp/mt/results.jsonl), with the claims of seeded/mutants.py."""
import json,sys
sys.path.insert(0,'/verif/seeded')
from mutants import M
claims={m[0]:m[6] for m in M}
tight=json.load(open('/verif/seeded/tightened.json'))
out=[]
for l in open('/tmp/mt/results.jsonl'):
    r=json.loads(l)
    if r['id'] in claims: r['claim_broken']=claims[r['id']]
    k=r['id']+('!' if r['build']=='SUCCEEDED' else '')
    r['theorems_tightened']=tight.get(k,[])
    out.append(json.dumps(r,ensure_ascii=False))
open('/verif/seeded/LOG.jsonl','w').write('\n'.join(out)+'\n')
import os
if os.path.exists('/verif/seeded/auto.jsonl'):
    open('/verif/seeded/LOG.jsonl','a').write(open('/verif/seeded/auto.jsonl').read())
