#!/usr/bin/env python3
"""Generate seeded bugs for definitions without one in seeded/LOG.jsonl: automut.py OUT.json [per-def] [files...]
Operator and constant edits inside the body of each definition of lean/Verif/Model."""
import re, json, glob, sys, random, collections
random.seed(7)
out=sys.argv[1]; per=int(sys.argv[2]) if len(sys.argv)>2 else 1; only=sys.argv[3:]
done=collections.defaultdict(set)
for l in open('/verif/seeded/LOG.jsonl'):
    r=json.loads(l); done[r.get('file','')].add(r['definition'].split(' ')[0].split('.')[-1])
RULES=[(r' < ',' ≤ '),(r' ≤ ',' < '),(r' > ',' ≥ '),(r' ≥ ',' > '),(r' \+ 1\b',''),(r' \+ 1\b',' + 2'),(r' - 1\b',''),(r' && ',' || '),(r' \|\| ',' && '),
 (r' == ',' != '),(r' != ',' == '),(r' = ',' ≠ '),(r'\bok true\b','ok false'),(r'\bok false\b','ok true'),(r'\.drop ','.take '),(r'\.take ','.drop '),
 (r'0x([0-9A-F]+)#(8|16|32)',None),(r'\bsome (\w+)\b','none'),(r' \+ ',' - '),(r' - ',' + '),(r'\b2\b','3'),(r'\b1\b','0'),(r'\b0\b','1'),(r'!\(',' ('),(r' true\b',' false'),(r' false\b',' true')]
def bodies(src):
    it=list(re.finditer(r'^(?:@\[[^\]]*\] )?(?:private )?def (\S+)',src,re.M))
    for i,m in enumerate(it):
        end=len(src)
        nx=re.compile(r'^(?:/--|/-!|def |theorem |structure |inductive |abbrev |end |instance |@\[|namespace |mutual)',re.M).search(src,m.end())
        if nx: end=nx.start()
        yield m.group(1),m.start(),end
muts=[]
for f in sorted(glob.glob('/verif/lean/Verif/Model/*.lean')):
    rel='Model/'+f.split('/')[-1]
    if only and f.split('/')[-1][:-5] not in only: continue
    if rel=='Model/CaseTables.lean': continue
    src=open(f).read()
    for name,a,b in bodies(src):
        if name.split('.')[-1] in done['lean/Verif/'+rel]: continue
        t=src[a:b]
        k=re.search(r':=|^\s*\|.*=>',t,re.M)
        if not k: continue
        off=k.start()
        cands=[]
        for pat,rep in RULES:
            for m in re.finditer(pat,t):
                if m.start()<off: continue
                ln=t[t.rfind('\n',0,m.start())+1:m.end()]
                if '--' in ln or ':=' in t[m.start()-1:m.end()+2]: continue
                if rep is None:
                    v=int(m.group(1),16)+1; r='0x%X#%s'%(v,m.group(2))
                else: r=rep
                # a fixed window for uniqueness
                cands.append((m.start(),m.end(),r))
        random.shuffle(cands)
        for s,e,r in cands[:per]:
            new=t[:s]+r+t[e:]
            muts.append({"file":rel,"def":name,"old":t,"new":new,"claim":"generated edit: %s no longer does what the code it models does"%name,"short":(t[max(0,s-25):e+25],r)})
json.dump(muts,open(out,'w'),indent=1)
print(len(muts)); print(collections.Counter(m['file'] for m in muts))
