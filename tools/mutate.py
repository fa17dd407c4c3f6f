#!/usr/bin/env python3
"""usage: mutate.py mutants.json   -- applies each model edit in a scratch copy (/tmp/scratch/lean), rebuilds, logs to seeded/LOG.jsonl
mutants.json: list of {definition, file, old, new, edit, claim, tightened?}"""
import json,sys,subprocess,re,os,shutil
V='/verif'; S='/tmp/scratch/lean'
muts=json.load(open(sys.argv[1]))
subprocess.run(['rsync','-a','--delete',V+'/lean/',S+'/'],check=False) if shutil.which('rsync') else (shutil.rmtree(S,ignore_errors=True),shutil.copytree(V+'/lean',S,symlinks=True))
def thm_at(f,line):
    name=None
    for i,l in enumerate(open(os.path.join(S,f)),1):
        m=re.match(r'(?:@\[[^\]]*\] )?(?:theorem|def|example|instance|lemma)\s*(\S*)',l)
        if m: name=(m.group(1) or 'example').rstrip(':') if not l.startswith('example') else f'example@{f}:{i}'
        if i>=line: break
    return name
for m in muts:
    p=os.path.join(S,m['file']); orig=open(p).read()
    if orig.count(m['old'])!=1:
        print('BAD PATTERN',m['definition'],orig.count(m['old'])); continue
    open(p,'w').write(orig.replace(m['old'],m['new']))
    r=subprocess.run(['lake','build'],cwd=S,capture_output=True,text=True)
    out=r.stdout+r.stderr
    failed=[]
    for f,l in re.findall(r'error: (\S+?\.lean):(\d+):\d+',out):
        t=thm_at(f,int(l))
        if t and t not in failed: failed.append(t)
    open(p,'w').write(orig)
    rec={"definition":m['definition'],"edit":m['edit'],"claim_broken":m['claim'],"theorems_failed":failed,"theorems_tightened":m.get('tightened',[])}
    ok=bool(failed)
    print(('caught ' if ok else 'SURVIVED ')+m['definition'],failed[:6])
    if ok or m.get('logsurvivor'):
        open(V+'/seeded/LOG.jsonl','a').write(json.dumps(rec)+'\n')
