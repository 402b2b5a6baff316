#!/usr/bin/env python3
"""usage: seed.py seeds.json — each seed: {file, def, old, new, claim, props:[Cxx]}.
Copies /verif/lean to /tmp/seed, applies one edit, builds, reports the theorems in which errors occur
and the modules that no longer build, appends to /verif/seeded/LOG.jsonl."""
import json,sys,subprocess,os,re,shutil
S='/tmp/seed'
SRC=os.environ.get('SEED_SRC','/verif/lean')
def thm(path,line):
    t='?'
    for i,l in enumerate(open(path),1):
        if i>line: break
        m=re.match(r'\s*(?:@\[.*?\]\s*)?(?:private |protected |noncomputable )*(theorem|lemma|def|example|instance)\s*([^\s:({\[]*)',l)
        if m: t=m.group(2) or f'{m.group(1)}@{i}'
    return t
seeds=json.load(open(sys.argv[1]))
for s in seeds:
    subprocess.run(['rsync','-a','--delete',SRC+'/',S+'/'],check=True) if shutil.which('rsync') else (shutil.rmtree(S,ignore_errors=True),subprocess.run(['cp','-a',SRC,S],check=True))
    f=f"{S}/Verif/{s['file']}"
    src=open(f).read()
    if src.count(s['old'])!=1:
        print('!! edit does not apply',s['def'],src.count(s['old'])); continue
    open(f,'w').write(src.replace(s['old'],s['new']))
    r=subprocess.run(['lake','build'],cwd=S,capture_output=True,text=True)
    out=r.stdout+r.stderr
    errs=[]
    modelerr=False
    for m in re.finditer(r'error: (Verif/\S+?\.lean):(\d+):(\d+): (.*)',out):
        t=f"{m.group(1)[6:-5]}:{thm(S+'/'+m.group(1),int(m.group(2)))}"
        if t not in errs: errs.append(t)
        if m.group(1).startswith('Verif/Model') and m.group(1).endswith(s['file']): modelerr=True
    # modules failing (with dependents): those whose olean is missing/out-of-date = listed as ✖ plus transitive importers
    bad=set(x.split(':')[0] for x in errs)
    imp={}
    for root,_,fs in os.walk(S+'/Verif'):
        for g in fs:
            if g.endswith('.lean'):
                p=os.path.join(root,g); k=os.path.relpath(p,S+'/Verif')[:-5]
                imp[k]=[x.replace('.','/') for x in re.findall(r'^import Verif\.(\S+)',open(p).read(),re.M)]
    ch=True
    allbad=set(bad)
    while ch:
        ch=False
        for k,v in imp.items():
            if k not in allbad and any(x in allbad for x in v): allbad.add(k); ch=True
    props=sorted(os.path.basename(k) for k in allbad if k.startswith('Props/'))
    hit=[p for p in s['props'] if p in props]
    miss=[p for p in s['props'] if p not in props]
    rec={'definition':f"{s['file']}: {s['def']}",'edit':f"{s['old']}  ==>  {s['new']}",'claim_broken':s['claim'],'properties':s['props'],'theorems_failed':errs,'property_modules_blocked':props,'still_proved':miss,'theorems_tightened':[]}
    print(('MODEL-ERR ' if modelerr else '')+('OK  ' if hit and not miss else 'MISS'),s['def'],'|',errs[:6],'| props',props,'| miss',miss)
    if modelerr: print(out[:1500]); continue
    open('/verif/seeded/LOG.jsonl','a').write(json.dumps(rec)+'\n')
