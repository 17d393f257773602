#!/usr/bin/env python3
"""Mutation testing of the model. usage: mutate.py edits.json [ids...]
Each edit: {"id","file" (under lean/Verif),"old","new","definition","edit","claim"[,"count"]}.
Works in a scratch copy /tmp/mut/lean; appends one JSON line per edit to seeded/LOG.jsonl."""
import json,os,re,shutil,subprocess,sys
SRC='/verif/lean'; DST='/tmp/mut/lean'; LOG='/verif/seeded/LOG.jsonl'
def sync():
    subprocess.check_call(['rsync','-a','--delete',SRC+'/',DST+'/']) if shutil.which('rsync') else (
        shutil.rmtree(DST,ignore_errors=True), shutil.copytree(SRC,DST,symlinks=True))
def enclosing(path,line):
    name=None
    for i,l in enumerate(open(path),1):
        if i>line: break
        m=re.match(r'\s*(?:@\[[^\]]*\]\s*)?(?:private |protected |noncomputable )*(theorem|lemma|def|abbrev|instance|example|structure)\b\s*(\S*)',l)
        if m: name=(m.group(2) if m.group(1)!='example' else 'example@%s:%d'%(os.path.basename(path),i)) or m.group(1)
    return name
def main():
    edits=json.load(open(sys.argv[1])); only=set(sys.argv[2:])
    done=set()
    if os.path.exists(LOG): done={json.loads(l)['id'] for l in open(LOG)}
    if not os.path.isdir(DST): sync()
    for e in edits:
        if only and e['id'] not in only: continue
        if not only and e['id'] in done: continue
        p=os.path.join(DST,'Verif',e['file'])
        src=open(os.path.join(SRC,'Verif',e['file'])).read()
        if src.count(e['old'])!=e.get('count',1):
            print('BAD EDIT',e['id'],src.count(e['old'])); continue
        open(p,'w').write(src.replace(e['old'],e['new']))
        r=subprocess.run(['lake','build'],cwd=DST,capture_output=True,text=True,timeout=3600)
        out=r.stdout+r.stderr
        failed=[]; 
        for m in re.finditer(r'^error: (?:\S*/)?(Verif/\S+\.lean):(\d+):\d+',out,re.M):
            n=enclosing(os.path.join(DST,m.group(1)),int(m.group(2)))
            if n and n not in failed: failed.append(n)
        mods=sorted(set(re.findall(r'^[✖] \[\d+/\d+\] (?:Building|Running) (\S+)',out,re.M)))
        open(p,'w').write(src)
        rec={'id':e['id'],'definition':e['definition'],'edit':e['edit'],'claim_broken':e['claim'],
             'build':'ok' if r.returncode==0 else 'failed','modules_failed':mods,'theorems_failed':failed,'theorems_tightened':e.get('tightened',[])}
        if e.get('note'): rec['note']=e['note']
        with open(LOG,'a') as f: f.write(json.dumps(rec)+'\n')
        print(e['id'],rec['build'],mods,failed[:6],flush=True)
main()
