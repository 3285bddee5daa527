#!/usr/bin/env python3
"""Regenerates MANIFEST.json from the theorem names in lean/Verif/Props and tools/status.json."""
import re, json, glob, collections
root='/verif'
thms=collections.defaultdict(list)
for f in sorted(glob.glob(root+'/lean/Verif/Props/*.lean')):
    ns='Spout'
    for l in open(f):
        k=re.match(r'namespace (\S+)',l)
        if k: ns=k.group(1)
        m=re.match(r'(?:protected )?theorem (C\d\d+)_(\S+)',l)
        if m: thms[m.group(1)].append(ns+'.'+m.group(1)+'_'+m.group(2))
status=json.load(open(root+'/tools/status.json'))
claims=[]
for l in open(root+'/properties.jsonl'):
    i=json.loads(l)['id']
    if i not in thms: continue
    st=status.get(i,{})
    s=st.get('status') or ('partial' if any(t.endswith('_partial') for t in thms[i]) else 'proved')
    claims.append({'property':i,'status':s,'theorems':thms[i],'note':st.get('note','')})
json.dump({'claims':claims},open(root+'/MANIFEST.json','w'),indent=1)
print(len(claims),'claims', sum(len(c['theorems']) for c in claims),'theorems')
