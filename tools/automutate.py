#!/usr/bin/env python3
"""Systematic mutation of lean/Verif/Model/*.lean.  usage: automutate.py OUT.jsonl [File.lean ...]
Every comparison, connective, constant, sign, update, branch of the model is edited in turn in a
scratch copy; an edit after which everything still builds (no proof notices) is printed as SURVIVED."""
import re,os,sys,json,subprocess,signal,shutil,time
LIVE='/verif/lean'; DST=os.environ.get('MUTDIR','/tmp/auto/lean')
out=sys.argv[1]; only=sys.argv[2:]
os.makedirs(os.path.dirname(DST),exist_ok=True)
subprocess.run(f'rm -rf {DST} && cp -a {LIVE} {DST}',shell=True,check=True)
def strip():
    """only theorems count: without examples and the conformance tests"""
    shutil.rmtree(DST+'/Verif/Conformance',ignore_errors=True)
    v=open(DST+'/Verif.lean').read().split('\n')
    open(DST+'/Verif.lean','w').write('\n'.join(l for l in v if 'Conformance' not in l))
    for d in ('Props','Lemmas'):
        for f in os.listdir(DST+'/Verif/'+d):
            p=DST+'/Verif/'+d+'/'+f
            # top-level chunks: start at a line that begins in column 0 and is not a continuation
            L=open(p).read().split('\n'); chunks=[]; depth=0
            for l in L:
                start=depth==0 and l and re.match(r'/-|--|@|#|(theorem|lemma|def|example|private|protected|abbrev|structure|inductive|instance|open|end|namespace|section|variable|set_option|import|attribute|noncomputable|mutual)\b',l)
                if start or not chunks: chunks.append([l])
                else: chunks[-1].append(l)
                depth+=l.count('/-')-l.count('-/')
            out=[]
            for c in chunks:
                if c[0].startswith('example'):
                    while out and (out[-1][0].startswith('/-- ') or out[-1][0].strip() in('open Classical in',) or re.match(r'(open|set_option) .* in$',out[-1][0])): out.pop()
                    continue
                out.append(c)
            open(p,'w').write('\n'.join('\n'.join(c) for c in out))
strip()
subprocess.run('lake build >/dev/null 2>&1',shell=True,cwd=DST)
ROOT='Verif/'+os.environ.get('SUB','Model')+'/'
files=only or sorted(os.listdir(DST+'/'+ROOT))
def code_lines(s):
    """(lineno, code part) outside comments, declarations of types and imports"""
    depth=0;res=[];kind=None
    for i,l in enumerate(s.split('\n')):
        o=''
        j=0
        while j<len(l):
            if l.startswith('/-',j): depth+=1;j+=2;continue
            if depth and l.startswith('-/',j): depth-=1;j+=2;continue
            if not depth and l.startswith('--',j): break
            o+= l[j] if not depth else ' '
            j+=1
        m=re.match(r'(def|abbrev|structure|inductive|theorem|instance|import|namespace|open|end|deriving|variable|universe|set_option|example)\b',o)
        if m: kind=m.group(1)
        if kind in('def','abbrev','inductive','instance') and o.strip(): res.append((i,o,kind,bool(m)))
    return res
ENUMS=[]
for f in os.listdir(DST+'/'+ROOT):
    s=open(DST+'/'+ROOT+f).read()
    for m in re.finditer(r'^inductive (\w+).*?(?=^\s*deriving|^\n|^/--|^def)',s,re.M|re.S):
        cs=re.findall(r'\|\s*(\w+)(?=\s*(?:\||$|deriving))',re.sub(r'/-.*?-/|--.*','',m.group(0),flags=re.S),re.M)
        if len(cs)>1: ENUMS.append(cs)
def variants(o,kind,head):
    """list of (start,end,replacement,label) inside the code part"""
    v=[]
    start=0
    if head:
        k=o.find(':=')
        start=len(o) if k<0 else k+2
    body=o
    def add(a,b,r,lab):
        if a>=start: v.append((a,b,r,lab))
    for m in re.finditer(r' (<|≤|>|≥|=|≠|==|!=|&&|\|\||∧|∨|\+|-|/|%|\*|\+\+) ',body):
        t=m.group(1)
        alt={'<':['≤','>'],'≤':['<','≥'],'>':['≥','<'],'≥':['>','≤'],'=':['≠'],'≠':['='],'==':['!='],'!=':['=='],'&&':['||'],'||':['&&'],'∧':['∨'],'∨':['∧'],'+':['-'],'-':['+'],'*':['+'],'/':['*'],'%':['/']}.get(t,[])
        for a in alt: add(m.start(1),m.end(1),a,f'{t} -> {a}')
    for m in re.finditer(r'(?<![\w.\]])(\d+)(?![\w.])',body):
        n=int(m.group(1))
        for k in ({n+1,n-1} if n>0 else {1}): add(m.start(1),m.end(1),str(k),f'{n} -> {k}')
    for m in re.finditer(r'\b(true|false)\b',body):
        r='false' if m.group(1)=='true' else 'true'
        add(m.start(1),m.end(1),r,f'{m.group(1)} -> {r}')
    for m in re.finditer(r'([\w.\']+|\([^()]*\)|\[[^\[\]]*\]) \+\+ ([\w.\']+|\([^()]*\)|\[[^\[\]]*\])',body):
        add(m.start(),m.end(),f'{m.group(2)} ++ {m.group(1)}','append swapped')
        add(m.start(),m.end(),m.group(1),'append: right dropped')
        add(m.start(),m.end(),m.group(2),'append: left dropped')
    for m in re.finditer(r'\bif (.+?) then (.+?) else (.+)$',body):
        add(m.start(),m.end(),f'if {m.group(1)} then {m.group(3)} else {m.group(2)}','branches swapped')
    for m in re.finditer(r'\bif (?!let)(?:(h\w*) : )?(.+?) then',body):
        if not m.group(1):
            add(m.start(),m.end(),f'if True then','condition always true'); add(m.start(),m.end(),f'if False then','condition always false')
    for m in re.finditer(r'\bmin\b',body): add(m.start(),m.end(),'max','min->max')
    for m in re.finditer(r'\bmax\b',body): add(m.start(),m.end(),'min','max->min')
    # field updates
    for m in re.finditer(r'\{ ?([\w.]+) with ([^{}]*(?:\{[^{}]*\}[^{}]*)*)\}',body):
        fs=re.split(r', (?=\w+ :=)',m.group(2).strip())
        for k in range(len(fs)):
            rest=fs[:k]+fs[k+1:]
            add(m.start(),m.end(),f'{{ {m.group(1)} with {", ".join(rest)} }}' if rest else m.group(1),'update of '+fs[k].split(' ')[0]+' dropped')
    # swapped arguments
    for m in re.finditer(r"(?<![\w.'])([a-z][\w.']*) ([a-z][\w.']*) ([a-z][\w.']*)(?![\w'])",body):
        if m.group(1) in('if','match','let','fun','with','then','else','do','return','some','from','have','show'): continue
        if m.group(2) in('with','then','else','do','from','fun','in') or m.group(3) in('with','then','else','do','from','fun','in'): continue
        if m.group(2)==m.group(3): continue
        add(m.start(),m.end(),f'{m.group(1)} {m.group(3)} {m.group(2)}','arguments swapped')
    for cs in ENUMS:
        for m in re.finditer(r'(?<![\w\)\]])\.('+'|'.join(cs)+r')\b',body):
            i=cs.index(m.group(1)); r=cs[(i+1)%len(cs)]
            add(m.start(1),m.end(1),r,f'.{m.group(1)} -> .{r}')
    if not head and re.match(r'\s+let (\w+) (:=|←)',body): v.append((0,len(o),'','line dropped'))
    return v
def build():
    p=subprocess.Popen('exec lake build 2>&1',shell=True,cwd=DST,stdout=subprocess.PIPE,text=True,preexec_fn=os.setsid)
    res='SURVIVED';where=''
    for l in p.stdout:
        m=re.match(r'error: (Verif/\S+?\.lean):(\d+):\d+: (.*)',l)
        if m:
            where=m.group(1)+':'+m.group(2)
            res='INVALID' if '/Model/' in m.group(1) and ROOT=='Verif/Model/' else 'caught'
            # keep reading a little: model errors come first anyway
            os.killpg(p.pid,signal.SIGKILL); break
        if l.startswith('error: build failed'): res='caught' if res=='SURVIVED' else res
    p.wait(); return res,where
recheck=None
if os.environ.get('RECHECK'):   # only the edits of earlier results that were first noticed in these places
    recheck=set()
    for fn in os.environ['RECHECK'].split(','):
        for l in open(fn):
            r=json.loads(l)
            if r['result']=='caught' and '/Props/' in r['where']: recheck.add((r['file'],r['old'],r['new']))
done=set()
if os.path.exists(out):
    for l in open(out): r=json.loads(l); done.add((r['file'],r['line'],r['label'],r['new']))
for f in files:
    path=DST+'/'+ROOT+f; src=open(path).read(); L=src.split('\n')
    for (i,o,kind,head) in code_lines(src):
        if kind=='inductive' and not re.search(r'→|:',o): continue
        seen=set()
        for (a,b,r,lab) in variants(o,kind,head):
            nl=L[i][:a]+r+L[i][b:]
            if nl in seen or nl==L[i]: continue
            seen.add(nl)
            if (f,i+1,lab,nl) in done: continue
            if recheck is not None and (f,L[i],nl) not in recheck: continue
            if lab=='arguments swapped' and L[i][:a].count('"')%2: continue
            t0=time.time()
            open(path,'w').write('\n'.join(L[:i]+[nl]+L[i+1:]))
            res,where=build()
            open(path,'w').write(src)
            rec={'file':f,'line':i+1,'label':lab,'old':L[i],'new':nl,'result':res,'where':where,'t':round(time.time()-t0)}
            open(out,'a').write(json.dumps(rec)+'\n')
            if res=='SURVIVED': print('SURVIVED',f,i+1,lab,'|',L[i].strip(),'=>',nl.strip(),flush=True)
print('done')
