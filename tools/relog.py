#!/usr/bin/env python3
"""Recompute theorems_failed / survived_claims of seeded/LOG.jsonl from the true dependency
graph (tools/deps.lean.txt output in /tmp/deps.txt) instead of textual matching."""
import json,sys
deps={}
for l in open('/tmp/deps.txt'):
    a=l.split()
    s=set()
    for n in a[1:]:
        p=n.split('.')
        for k in range(1,min(4,len(p))+1): s.add('.'.join(p[-k:]))
    deps[a[0]]=s
known=set().union(*deps.values())
out=[];weak=0
for i,l in enumerate(open('/verif/seeded/LOG.jsonl')):
    r=json.loads(l)
    f=r.get('proofs_failed',[])
    unk=[x for x in f if '@' not in x and x not in known]
    hit=sorted(n.split('.')[-1] for n,s in deps.items() if any(x in s for x in f))
    if unk and not hit: print(i+1,'unknown',unk,'kept')
    elif r.get('properties'):
        miss=[p for p in r['properties'] if not any(h.startswith(p+'_') for h in hit)]
        if miss and not r.get('theorems_tightened'): weak+=1; print(i+1,r['definition'],'|',r['edit'],'|',r['properties'],'miss',miss,'| was',r.get('survived_claims'),'| failed',f[:5],'unk',unk)
        if '-w' in sys.argv:
            r['theorems_failed']=hit; r['survived_claims']=miss
    out.append(r)
print('weak',weak)
if '-w' in sys.argv: open('/verif/seeded/LOG.jsonl','w').write(''.join(json.dumps(r)+'\n' for r in out))
