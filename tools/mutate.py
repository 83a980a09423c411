#!/usr/bin/env python3
"""Seeded-bug runner: mutate.py FILE.json
FILE.json: list of {"file": "Model/Utf8.lean", "def": .., "old": .., "new": .., "claim": ..}.
Each edit is applied alone to a scratch copy of /verif/lean, rebuilt, and the failing theorems are logged."""
import sys, json, subprocess, re, os, shutil, signal, threading
S=os.environ.get('MUT_S','/tmp/scratch'); P=os.environ.get('MUT_P','/tmp/pristine')
GRACE=25  # seconds the build goes on after its first error
def sync():
    shutil.rmtree(P,ignore_errors=True); subprocess.run(['cp','-a','/verif/lean',P],check=True)
def fresh():
    # the compiled files of the last edit are dropped too: otherwise everything would be rebuilt
    shutil.rmtree(S,ignore_errors=True); subprocess.run(['cp','-a',P,S],check=True)
def build():
    p=subprocess.Popen(['lake','build'],cwd=S,stdout=subprocess.PIPE,stderr=subprocess.STDOUT,text=True,start_new_session=True)
    out=[]
    def late():
        try: os.killpg(p.pid,signal.SIGKILL)
        except ProcessLookupError: pass
    t=None
    for l in p.stdout:
        out.append(l)
        if t is None and l.startswith('error'):
            t=threading.Timer(GRACE,late); t.start()
    rc=p.wait()
    if t: t.cancel()
    return rc,''.join(out)
def enclosing(path,line):
    name=None
    for i,l in enumerate(open(path)):
        if i+1>line: break
        m=re.match(r'(?:@\[.*?\]\s*)?(?:private\s+|protected\s+)?(theorem|lemma|def|example|instance|abbrev)\s*([^\s:({\[]*)',l)
        if m: name=(m.group(2) or (m.group(1)+'@%d'%(i+1)))
    return name
muts=json.load(open(sys.argv[1]))
sync()
for mu in muts:
    fresh()
    f=os.path.join(S,'Verif',mu['file'])
    src=open(f).read()
    if src.count(mu['old'])<1:
        print('NOT FOUND',mu['file'],mu['old'][:60]); continue
    if src.count(mu['old'])>1 and not mu.get('nth'):
        print('AMBIGUOUS',mu['file'],mu['old'][:60],src.count(mu['old'])); continue
    if mu.get('nth'):
        parts=src.split(mu['old']); k=mu['nth']
        new=mu['old'].join(parts[:k])+mu['new']+mu['old'].join(parts[k:])
    else: new=src.replace(mu['old'],mu['new'])
    open(f,'w').write(new)
    rc,out=build()
    failed=[]
    for m in re.finditer(r'^error: (Verif/\S+\.lean):(\d+):',out,re.M):
        n=enclosing(os.path.join(S,m.group(1)),int(m.group(2)))
        if n and n not in failed: failed.append(n)
    open(f,'w').write(src)
    rec={"definition":mu['def'],"file":"lean/Verif/"+mu['file'],"edit":("…%s…  ==>  %s"%tuple(mu['short']) if 'short' in mu else "%s  ==>  %s"%(mu['old'],mu['new'])),"claim_broken":mu['claim'],"theorems_failed":failed,"theorems_tightened":[]}
    print(('KILLED ' if failed else ('BUILDFAIL ' if rc else 'SURVIVED ')),mu['def'],'|',str(mu.get('short',(mu['old'][:50],mu['new'][:50]))).replace('\n',' '),failed[:6],flush=True)
    if rc and not failed: print(out[-500:])
    if mu.get('log',True):
        with open('/verif/seeded/LOG.jsonl','a') as g: g.write(json.dumps(rec)+'\n')
