#!/usr/bin/env python3
"""usage: automut.py SNAPSHOT OUT.jsonl [perdef] [seed] [only-file-regex] — mutates every definition of Verif/Model mechanically, one edit at a time,
rebuilds a scratch copy until the first theorem fails, and records killed mutants and survivors."""
import json,sys,subprocess,os,re,shutil,random,glob,signal
SNAP,OUT=sys.argv[1],sys.argv[2]
PER=int(sys.argv[3]) if len(sys.argv)>3 else 1
random.seed(int(sys.argv[4]) if len(sys.argv)>4 else 1)
ONLY=sys.argv[5] if len(sys.argv)>5 else '.'
W=os.environ.get('MUT_DIR','/tmp/mutwork')
def decl(path,line):
    t='?'
    for i,l in enumerate(open(path),1):
        if i>line: break
        m=re.match(r'\s*(?:@\[.*?\]\s*)?(?:private |protected |noncomputable )*(theorem|lemma|def|example|instance)\s*([^\s:({\[]*)',l)
        if m: t=m.group(2) or f'{m.group(1)}@{i}'
    return t
OPS=[(r' < ',' ≤ '),(r' ≤ ',' < '),(r' > ',' ≥ '),(r' ≥ ',' > '),(r' \+ 1\b',' + 2'),(r' \+ 1\b',''),(r' - 1\b',''),(r' \+ ',' - '),(r'\.x\b','.y'),(r'\.y\b','.x'),
 (r'\bmin\b','max'),(r'\bmax\b','min'),(r'\btrue\b','false'),(r'\bfalse\b','true'),(r' && ',' || '),(r' \|\| ',' && '),(r' ∧ ',' ∨ '),(r' ∨ ',' ∧ '),(r' = ',' ≠ '),(r' ≠ ',' = '),(r' == ',' != '),
 (r'\.take ','.drop '),(r'\.drop ','.take '),(r'\b0\b','1'),(r'\b1\b','0'),(r'\b2\b','3'),(r'\b(\d\d+)\b',lambda m:str(int(m.group(1))+1)),(r'\.reverse\b',''),(r'\.from_','.to_'),(r'\.to_','.from_'),
 (r'if (?!let|h )',"if ¬ "),(r'\.ok\b','.ok'),(r' :: ',' :: '),(r'\blhs\b','rhs'),(r'none\b','none'),(r'\.1\b','.2'),(r'\.2\b','.1'),(r'\.getLast\?','.head?'),(r'\.head\?','.getLast?'),(r'\.throw_','.ub'),(r'\.ub','.throw_'),
 (r' ++ \[',' ++ ['),(r'\.tail\b',''),(r'\.filter \(fun','.filter (! fun'),(r'% 2 \^ \d+',''),(r'\.sortBy','.sortBy')]
def mutants(body):
    r=[]
    for pat,rep in OPS:
        for m in re.finditer(pat,body):
            new=body[:m.start()]+(rep(m) if callable(rep) else rep)+body[m.end():]
            if '--' in body[body.rfind('\n',0,m.start())+1:m.start()]: continue
            if new!=body: r.append((m.start(),m.end(),rep(m) if callable(rep) else rep,new))
    return r
items=[]
for f in sorted(glob.glob(SNAP+'/Verif/Model/*.lean')):
    if not re.search(ONLY,os.path.basename(f)): continue
    src=open(f).read()
    for m in re.finditer(r'^(?:def|abbrev) (\S+?)(?=[\s:({\[]).*?(?=^(?:/-|def |abbrev |structure |inductive |theorem |end |namespace |instance |where_end|deriving|@\[)|\Z)',src,re.M|re.S):
        text=m.group(0); k=text.find(':=')
        k2=text.find('\n  |')
        cand=[x for x in (k,k2) if x>=0]
        if not cand: continue
        k=min(cand)
        ms=mutants(text[k:])
        random.shuffle(ms)
        used=set(); n=0
        for (a,b,rep,new) in ms:
            if a in used: continue
            used.add(a)
            items.append((f,m.group(1),m.start()+k,m.end(),text[k:],new,a,n)); n+=1
            if n>=4*PER: break
done={}
if os.path.exists(OUT):
    for l in open(OUT):
        d=json.loads(l); done.setdefault((d['file'],d['def']),[]).append(d)
env=dict(os.environ)
for (f,d,s,e,old,new,a,n) in items:
    key=(os.path.basename(f),d)
    good=[x for x in done.get(key,[]) if x['result']!='invalid']
    if len(good)>=PER: continue
    if any(x['new']==new for x in done.get(key,[])): continue
    import time
    for _ in range(20):
        shutil.rmtree(W,ignore_errors=True)
        if not os.path.exists(W) and subprocess.run(['cp','-a',SNAP,W]).returncode==0: break
        time.sleep(1)
    p=W+'/Verif/Model/'+os.path.basename(f)
    src=open(p).read(); open(p,'w').write(src[:s]+new+src[e:])
    pr=subprocess.Popen(['taskset','-c',os.environ.get('MUT_CPUS','2,3'),'lake','build'],cwd=W,stdout=subprocess.PIPE,stderr=subprocess.STDOUT,text=True,preexec_fn=os.setsid)
    res='survived'; kills=[]; ex=[]
    for line in pr.stdout:
        m=re.search(r'error: (Verif/\S+?\.lean):(\d+):',line)
        if m:
            t=decl(W+'/'+m.group(1),int(m.group(2)))
            if m.group(1).startswith('Verif/Model'):
                res='invalid'; break
            if t.startswith('example'): ex.append(m.group(1)[6:-5]+':'+t); continue
            kills.append(m.group(1)[6:-5]+':'+t); res='killed'; break
    try: os.killpg(pr.pid,signal.SIGKILL)
    except ProcessLookupError: pass
    pr.wait()
    lo=max(0,a-40)
    rec={'file':key[0],'def':d,'old':old[lo:a+40],'mut':new[lo:a+40],'new':new,'result':res,'kills':kills,'examples':ex}
    done.setdefault(key,[]).append(rec)
    open(OUT,'a').write(json.dumps(rec,ensure_ascii=False)+'\n')
    if res!='invalid': print(res,key,repr(old[lo:a+30]),'=>',repr(new[lo:a+30]),kills,ex,flush=True)
