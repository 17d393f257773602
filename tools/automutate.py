#!/usr/bin/env python3
"""Automatic mutation of the model: automutate.py OUT.jsonl SEED PER_DEF WORKER NWORKERS [file-regex]
Every mutant is one textual change of one definition under Verif/Model or Verif/Go, built in a
scratch copy. Outcomes: invalid (the edited definition does not compile), killed (a theorem
fails), example (only examples failed), survived (everything builds)."""
import json,os,random,re,shutil,subprocess,sys,signal
SRC='/tmp/amut/base'
out,seed,per,wk,nw=sys.argv[1],int(sys.argv[2]),int(sys.argv[3]),int(sys.argv[4]),int(sys.argv[5])
rx=re.compile(sys.argv[6]) if len(sys.argv)>6 else None
DST='/tmp/amut/w%d'%wk
DECL=re.compile(r'^\s*(?:@\[[^\]]*\]\s*)?(?:private |protected |noncomputable )*(theorem|lemma|def|abbrev|instance|example|structure|inductive|class)\b\s*(\S*)')
OPS=[(r'(?<![\w.])(\d+)(?![\w.x])',lambda m:str(int(m.group(1))+1)),
     (r' \+ (?!\+)',lambda m:' - '),(r' - ',lambda m:' + '),
     (r' < ',lambda m:' ≤ '),(r' ≤ ',lambda m:' < '),(r' == ',lambda m:' != '),(r' != ',lambda m:' == '),
     (r'(?<=if )(?!h )([^:]*?)(?= then)',lambda m:'¬ (%s)'%m.group(1)),
     (r' && ',lambda m:' || '),(r' \|\| ',lambda m:' && '),(r'\btrue\b',lambda m:'false'),(r'\bfalse\b',lambda m:'true'),
     (r' >>> ',lambda m:' <<< '),(r' <<< ',lambda m:' >>> '),(r' ∧ ',lambda m:' ∨ '),(r' ∨ ',lambda m:' ∧ '),
     (r'\.done\b',lambda m:'.failed'),(r'\bnone\b',lambda m:'(some default)'),
     (r'\.objectID\b',lambda m:'.offset'),(r'\.offset\b',lambda m:'.objectID'),
     (r'\btake\b',lambda m:'drop'),(r'\bdrop\b',lambda m:'take'),
     (r' \* ',lambda m:' + '),(r' / ',lambda m:' % '),(r' % ',lambda m:' / ')]
def mutants():
    res=[]
    for d in ('Model','Go'):
        for f in sorted(os.listdir(f'{SRC}/Verif/{d}')):
            if rx and not rx.search(d+'/'+f): continue
            lines=open(f'{SRC}/Verif/{d}/{f}').read().split('\n')
            inc=False; cur=None; kind=None; body=False; cands={}
            for i,l in enumerate(lines):
                s=l
                if inc:
                    if '-/' in s: inc=False
                    continue
                if '/-' in s and '-/' not in s: inc=True; continue
                if s.strip().startswith('/-') or s.strip().startswith('--'): continue
                m=DECL.match(s)
                if m:
                    kind=m.group(1); cur=m.group(2); body=False
                if kind not in('def','abbrev','instance'): continue
                start=0
                if not body:
                    k=s.find(':=')
                    if k>=0: body=True; start=k+2
                    elif re.match(r'\s+\|',s): body=True
                    else: continue
                code=s.split('--')[0]
                mo=re.match(r'\s+\|(.*?)=>',code)
                if mo: start=max(start,mo.end())
                for rxp,fn in OPS:
                    for m in re.finditer(rxp,code):
                        if m.start()<start: continue
                        new=code[:m.start()]+fn(m)+code[m.end():]
                        cands.setdefault(cur,[]).append((i,l,new))
                if re.match(r'\s+(modify|set|Cmd\.|warn|log)\b.*',code) and body and '<-' not in code:
                    cands.setdefault(cur,[]).append((i,l,re.match(r'\s+',code).group(0)+'pure ()'))
            for k,v in cands.items():
                rnd=random.Random('%d/%s/%s'%(seed,f,k)); rnd.shuffle(v)
                for c in v[:per]: res.append((d+'/'+f,k)+c)
    random.Random(seed).shuffle(res)
    return res
def encl(path,line):
    r=('?','?')
    for i,l in enumerate(open(path),1):
        if i>line: break
        m=DECL.match(l)
        if m: r=(m.group(1),m.group(2))
    return r
def run(f,i,old,new):
    shutil.rmtree(DST,ignore_errors=True); subprocess.check_call(['cp','-rp',SRC,DST])
    p=f'{DST}/Verif/{f}'
    ls=open(p).read().split('\n'); assert ls[i]==old; ls[i]=new
    open(p,'w').write('\n'.join(ls))
    pr=subprocess.Popen(['nice','lake','build'],cwd=DST,stdout=subprocess.PIPE,stderr=subprocess.STDOUT,text=True,start_new_session=True)
    ex=[];kill=None
    for l in pr.stdout:
        m=re.match(r'^error: (?:\S*/)?(Verif/(\S+)\.lean):(\d+):\d+: (.*)',l)
        if m:
            k,n=encl(f'{DST}/{m.group(1)}',int(m.group(3)))
            if m.group(2)+'.lean'==f: kill=('invalid',n,m.group(4)[:100]); break
            if k=='example': ex.append(m.group(2)+':'+m.group(3))
            else: kill=('killed',m.group(2)+':'+n,''); break
    try: os.killpg(pr.pid,signal.SIGKILL)
    except Exception: pass
    pr.wait()
    if kill: return kill+(ex,)
    if pr.returncode==0: return ('survived','','',ex)
    return ('example' if ex else 'unknown','','',ex)
done=set()
if os.path.exists(out): done={(r['file'],r['line'],r['new']) for r in map(json.loads,open(out))}
ms=mutants()
print(len(ms),'mutants',flush=True)
for n,(f,k,i,old,new) in enumerate(ms):
    if n%nw!=wk or (f,i+1,new) in done: continue
    r=run(f,i,old,new)
    with open(out,'a') as o: o.write(json.dumps(dict(file=f,definition=k,line=i+1,old=old,new=new,outcome=r[0],by=r[1],msg=r[2],examples=r[3]))+'\n')
    print(n,f,k,r[0],r[1],flush=True)
