#!/usr/bin/env python3
"""Mutation testing of the theorems.

usage: mutate.py FILE.json...   (list of mutants)
A mutant: {"def","file","old","new","claim","props":["C01",...]}.
Copies /verif/lean to /tmp/mut/lean, applies the edit there, builds, finds the
declarations whose proofs fail and (dependency graph of the kernel terms) the theorems
Cnn_ that depend on them, and appends one line per mutant to /verif/seeded/LOG.jsonl.
"""
import json,os,re,subprocess,sys,shutil,datetime
LIVE='/verif/lean'; SRC='/tmp/mut/src'; DST='/tmp/mut/lean'   # SRC: snapshot, so that /verif can be edited meanwhile
def decls():
    out=[]
    for root,_,fs in os.walk(SRC+'/Verif'):
        for f in fs:
            if not f.endswith('.lean'): continue
            path=os.path.join(root,f)
            rel=os.path.relpath(path,SRC)
            lines=open(path).read().split('\n')
            cur=None
            for i,l in enumerate(lines,1):
                m=re.match(r'^(?:@\[[^\]]*\]\s*)?(?:private\s+|protected\s+)?(theorem|def|inductive|structure|abbrev|instance|example)\s*([^\s:({\[]*)',l)
                if m:
                    cur={'file':rel,'name':m.group(2) or f'{m.group(1)}@{i}','kind':m.group(1),'start':i,'text':[]}
                    out.append(cur)
                if cur is not None: cur['text'].append(l); cur['end']=i
    for d in out:
        d['tok']=set(re.findall(r"[A-Za-z_][\w']*",'\n'.join(d['text'])))
    return out
def sync():
    os.makedirs('/tmp/mut',exist_ok=True)
    subprocess.run(f'rm -rf {SRC} && cp -a {LIVE} {SRC}',shell=True,check=True)
    subprocess.run(['rsync','-a','--delete',SRC+'/',DST+'/'],check=True) if shutil.which('rsync') else subprocess.run(f'rm -rf {DST} && cp -a {SRC} {DST}',shell=True,check=True)
HOLE='so'+'rry'   # only ever written to the scratch copy
def stub(path,rel,names,D):
    """replace the proofs of the failed theorems in the scratch copy so that later modules are checked too"""
    lines=open(path).read().split('\n')
    for d in sorted([d for d in D if d['file']==rel and d['name'] in names],key=lambda d:-d['start']):
        blk=lines[d['start']-1:d['end']]
        if d['kind']=='example':
            # drop up to the trailing blank/comment lines
            cut=next((i for i,l in enumerate(blk) if i>0 and l.strip()==''),len(blk))
            lines[d['start']-1:d['start']-1+cut]=['example : True := trivial']+['']*(cut-1)
            continue
        cut=next((i for i,l in enumerate(blk) if re.search(r':=( by)?$',l)),None)
        if cut is None:
            cut=next((i for i,l in enumerate(blk) if ':=' in l),None)
            if cut is None:
                cut=next((i for i,l in enumerate(blk) if re.search(r' where$',l)),None)
                if cut is None: continue
                blk[cut]=re.sub(r' where$',' :=',blk[cut])
            new=blk[cut][:blk[cut].index(':=')]+':= by '+HOLE
        else: new=re.sub(r':=( by)?$',':= by '+HOLE,blk[cut])
        end=next((i for i,l in enumerate(blk) if i>cut and l.strip()==''),len(blk))
        # proofs may contain blank lines: stop at next top-level line
        j=cut+1
        while j<len(blk) and (blk[j]=='' or blk[j].startswith(' ') or blk[j].startswith('|')): j+=1
        lines[d['start']-1+cut:d['start']-1+j]=[new]+['']*(j-cut-1)
    open(path,'w').write('\n'.join(lines))
def run(m,D):
    p=os.path.join(DST,m['file'])
    orig=open(os.path.join(SRC,m['file'])).read()
    n=orig.count(m['old'])
    if n!=1: return None,f'pattern occurs {n} times'
    open(p,'w').write(orig.replace(m['old'],m['new']))
    failed=[];err=None;touched=set()
    for a in m.get('also',[]):   # the same edit in a second place
        q=os.path.join(DST,a['file']); t=open(q).read()
        if t.count(a['old'])!=1: open(p,'w').write(orig); return None,f"pattern (also) occurs {t.count(a['old'])} times"
        open(q,'w').write(t.replace(a['old'],a['new'])); touched.add(a['file'])
    for it in range(12):
        r=subprocess.run('lake build 2>&1',shell=True,cwd=DST,capture_output=True,text=True)
        if r.returncode==0: break
        errs=re.findall(r'error: (Verif/\S+\.lean):(\d+):\d+: (.*)',r.stdout)
        new={}
        for f,l,msg in errs:
            c=[d for d in D if d['file']==f and d['start']<=int(l)<=d['end']]
            if '/Model/' in f: err='MODEL DOES NOT COMPILE: '+msg
            if c:
                new.setdefault(f,set()).add(c[-1]['name'])
                if c[-1]['name'] not in failed: failed.append(c[-1]['name'])
        if err or not new: break
        hit=closure(failed,D)
        if not os.environ.get('FULL') and all(any(h.startswith(p+'_') for h in hit) for p in m['props']): break   # every claimed property is hit: no need to look for more
        for f,ns in new.items():
            touched.add(f); stub(os.path.join(DST,f),f,ns,D)
    else: print('   (gave up stubbing)')
    open(p,'w').write(orig)
    for f in touched: shutil.copy(os.path.join(SRC,f),os.path.join(DST,f))
    return failed,err
def closure(failed,D):
    """theorems Cnn_ that (by the dependency graph of the unedited project, tools/deps.lean.txt) rest on a failed declaration"""
    return sorted(n.split('.')[-1] for n,s in DEPS.items() if any(x in s for x in failed))
def loadDeps():
    r=subprocess.run('lake build >/dev/null 2>&1; lake env lean /verif/tools/deps.lean.txt',shell=True,cwd=SRC,capture_output=True,text=True)
    deps={}
    for l in r.stdout.split('\n'):
        a=l.split()
        if not a: continue
        s=set()
        for n in a[1:]:
            p=n.split('.')
            for k in range(1,min(4,len(p))+1): s.add('.'.join(p[-k:]))
        deps[a[0]]=s
    return deps
sync(); D=decls(); DEPS=loadDeps()
skip=int(os.environ.get('SKIP','0'))
for fn in sys.argv[1:]:
    for m in json.load(open(fn))[skip:]:
        failed,err=run(m,D)
        if err: print('!!',m['def'],m['new'][:60].replace('\n','|'),err); continue
        hit=closure(failed,D)
        ok=[p for p in m['props'] if any(h.startswith(p+'_') for h in hit)]
        miss=[p for p in m['props'] if p not in ok]
        print(('OK  ' if not miss else 'WEAK'),m['def'],'|',m['edit'],'|',m['props'],'miss' if miss else '',miss,'| direct:',failed[:4],flush=True)
        if os.environ.get('DRY'): continue
        rec={'definition':m['def'],'edit':m['edit'],'old':m['old'],'new':m['new'],'breaks':m['claim'],'properties':m['props'],
             'proofs_failed':failed,'theorems_failed':hit,'survived_claims':miss,'theorems_tightened':m.get('tightened',[])}
        open('/verif/seeded/LOG.jsonl','a').write(json.dumps(rec)+'\n')
