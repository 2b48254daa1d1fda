#!/usr/bin/env python3
"""Regenerates MANIFEST.json: collects theorems named Cxx_* in lean/Verif/**/*.lean.
status/notes overrides come from tools/notes.json."""
import re,json,glob,os
R='/verif'
th={}
for f in sorted(glob.glob(R+'/lean/Verif/**/*.lean',recursive=True)):
    ns=[]
    for l in open(f):
        m=re.match(r'namespace (\S+)\s*$',l)
        if m: ns.append(m.group(1))
        m=re.match(r'end (\S+)\s*$',l)
        if m and ns and ns[-1]==m.group(1): ns.pop()
        m=re.match(r'theorem (C\d\d+_\S+)',l)
        if m:
            n=m.group(1); pid=n.split('_')[0]
            th.setdefault(pid,[]).append('.'.join(ns+[n]))
notes=json.load(open(R+'/tools/notes.json')) if os.path.exists(R+'/tools/notes.json') else {}
claims=[]; missing=[]
for l in open(R+'/properties.jsonl'):
    p=json.loads(l)['id']
    if p not in th and p not in notes:
        missing.append(p); continue
    t=th.pop(p,[])
    n=notes.get(p,{})
    st=n.get('status') or ('partial' if any(x.endswith('_partial') for x in t) else 'proved')
    claims.append({'property':p,'status':st,'theorems':t,'note':n.get('note','')})
json.dump({'claims':claims},open(R+'/MANIFEST.json','w'),indent=1,ensure_ascii=False)
print('claims',len(claims),'missing',missing,'orphans',list(th))
