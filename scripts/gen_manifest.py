#!/usr/bin/env python3
"""Generate MANIFEST.json: collect theorems named Cnn_* from lean/Verif/Props, with notes/status overrides in NOTES."""
import re, json, glob, os
root=os.path.dirname(os.path.dirname(os.path.abspath(__file__)))
props=[json.loads(l) for l in open(f'{root}/properties.jsonl')]
notes=json.load(open(f'{root}/scripts/manifest_notes.json'))
th={}
for f in sorted(glob.glob(f'{root}/lean/Verif/Props/**/*.lean',recursive=True)):
    ns=[]
    for line in open(f):
        m=re.match(r'namespace (\S+)',line)
        if m: ns.append(m.group(1))
        m=re.match(r'end (\S+)',line)
        if m and ns and ns[-1]==m.group(1): ns.pop()
        m=re.match(r'(?:@\[[^\]]*\] *)?theorem (C\d\d+_\S+)',line)
        if m:
            n=m.group(1).rstrip(':')
            th.setdefault(n.split('_')[0],[]).append('.'.join(ns+[n]))
claims=[]
for p in props:
    i=p['id']; n=notes.get(i,{})
    ts=th.get(i,[])
    st=n.get('status') or ('partial' if (not ts or any(t.endswith('_partial') for t in ts)) else 'proved')
    claims.append({"property":i,"status":st,"theorems":ts,"note":n.get('note','') or ('' if ts else 'Not yet modelled.')})
json.dump({"claims":claims},open(f'{root}/MANIFEST.json','w'),indent=1)
print({s:sum(c['status']==s for c in claims) for s in ('proved','partial','not_applicable')}, 'theorems',sum(map(len,th.values())))
