#!/usr/bin/env python3
"""Seeded-bug runner. Reads seeded/mutations.jsonl (id, file, old, new, definition, edit, claim), applies each one to a scratch
copy of lean/ (in /tmp/mut), rebuilds, and appends one line per attempt to seeded/LOG.jsonl.
usage: mutate.py [id ...]   (default: all ids not in the log)"""
import json, os, re, subprocess, sys, shutil
V='/verif'; S='/tmp/mut'
muts=[json.loads(l) for l in open(V+'/seeded/mutations.jsonl') if l.strip()]
log=V+'/seeded/LOG.jsonl'
done={json.loads(l).get('id') for l in open(log) if l.strip()} if os.path.exists(log) else set()
want=sys.argv[1:]
def sync():
    os.makedirs(S,exist_ok=True)
    subprocess.run(['rsync','-a','--delete',V+'/lean/',S+'/'],check=True) if shutil.which('rsync') else subprocess.run('rm -rf %s && cp -a %s/lean %s'%(S,V,S),shell=True,check=True)
def decls(path):
    r=[]
    for i,l in enumerate(open(path),1):
        m=re.match(r'\s*(?:@\[[^\]]*\]\s*)?(?:private |protected |noncomputable )*(theorem|lemma|def|example|instance|structure|inductive|abbrev)\s*([^\s:({\[]*)',l)
        if m: r.append((i,m.group(1),m.group(2) or '(example)'))
    return r
def bodies(root):
    """name -> (kind, text); fills FILE[name]"""
    out={}
    for d,_,fs in os.walk(root):
        for f in fs:
            if f.endswith('.lean'):
                p=os.path.join(d,f); L=open(p).read().split('\n'); ds=decls(p)
                for k,(i,kind,n) in enumerate(ds):
                    e=ds[k+1][0]-1 if k+1<len(ds) else len(L)
                    out.setdefault(n,(kind,'')); FILE[n]=os.path.relpath(p,S)
                    out[n]=(kind,out[n][1]+'\n'.join(L[i-1:e]))
    return out
FILE={}
def importers(f):
    """files that import f transitively, and f"""
    imp={}
    for d,_,fs in os.walk(S+'/Verif'):
        for x in fs:
            if x.endswith('.lean'):
                q=os.path.relpath(os.path.join(d,x),S)
                imp[q]={l.split()[1].replace('.','/')+'.lean' for l in open(S+'/'+q) if l.startswith('import ')}
    r={f}; ch=True
    while ch:
        ch=False
        for q in imp:
            if q not in r and imp[q]&r: r.add(q); ch=True
    return r
for m in muts:
    if want:
        if m['id'] not in want: continue
    elif m['id'] in done: continue
    sync()
    p=S+'/'+m['file']; s=open(p).read()
    if s.count(m['old'])!=1:
        print(m['id'],'PATTERN COUNT',s.count(m['old'])); continue
    open(p,'w').write(s.replace(m['old'],m['new']))
    r=subprocess.run(['lake','build'],cwd=S,capture_output=True,text=True)
    txt=r.stdout+r.stderr
    failed=[]
    for f,l in re.findall(r'error: (Verif/\S+\.lean):(\d+):\d+',txt):
        n='?'
        for i,kind,name in decls(S+'/'+f):
            if i<=int(l): n=name
        if n not in failed: failed.append(n)
    # property theorems depending (textually) on failed declarations
    B=bodies(S+'/Verif'); bad=set(failed); ch=True
    pat=re.compile(r"[A-Za-z_][A-Za-z0-9_'.]*")
    toks={n:set(x for t in pat.findall(tx) for x in {t,t.split('.')[-1]}) for n,(k,tx) in B.items()}
    I=importers(m['file'])
    while ch:
        ch=False
        for n in B:
            if n not in bad and FILE[n] in I and B[n][0] in('theorem','lemma') and any(b in toks[n] or b.split('.')[-1] in toks[n] for b in bad if b!='(example)'):
                bad.add(n); ch=True
    props=sorted(n for n in bad if re.match(r'C\d\d',n.split('.')[-1]))
    rec={'id':m['id'],'definition':m['definition'],'file':m['file'],'edit':m['edit'],'claim':m['claim'],
         'failed':failed,'property_theorems_lost':props,'survived':r.returncode==0,'tightened':m.get('tightened',[])}
    print(m['id'],'SURVIVED' if r.returncode==0 else 'killed',failed[:6],props)
    open(log,'a').write(json.dumps(rec,ensure_ascii=False)+'\n')
