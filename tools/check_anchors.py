#!/usr/bin/env python3
"""Checks that every anchor in properties.jsonl names a file and symbols that exist in /repo."""
import json,os,re
bad=0
for l in open('/verif/properties.jsonl'):
    p=json.loads(l)
    for a in p['anchors']:
        f,_,syms=a.partition(':')
        if not os.path.exists('/repo/'+f.strip()): print(p['id'],'no file',f); bad+=1; continue
        if os.path.isdir('/repo/'+f.strip()): continue
        t=open('/repo/'+f.strip()).read()
        for s in [x.strip() for x in syms.split(',') if x.strip()]:
            if not re.search(r'\b'+re.escape(s.split('.')[-1].strip('()*'))+r'\b',t): print(p['id'],f,'no symbol',s); bad+=1
print('bad',bad)
