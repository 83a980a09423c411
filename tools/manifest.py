#!/usr/bin/env python3
"""Regenerate MANIFEST.json: collects the theorems named Cnn_* from lean/Verif/Props and the notes in tools/notes.json."""
import re, json, glob, collections
props=[json.loads(l)['id'] for l in open('/verif/properties.jsonl')]
notes=json.load(open('/verif/tools/notes.json'))
th=collections.defaultdict(list)
for f in sorted(glob.glob('/verif/lean/Verif/Props/*.lean')):
    ns=[]
    for line in open(f):
        m=re.match(r'namespace\s+(\S+)',line)
        if m: ns.append(m.group(1))
        m=re.match(r'end\s+(\S+)',line)
        if m and ns and ns[-1]==m.group(1): ns.pop()
        m=re.match(r'(?:private\s+)?theorem\s+(C(\d\d\d?)_\S+)',line)
        if m: th['C'+m.group(2)].append('.'.join(ns+[m.group(1)]))
claims=[]
for p in props:
    t=th.get(p,[])
    n=notes.get(p,{})
    if not t:
        claims.append({"property":p,"status":n.get("status","not_applicable"),"theorems":[],"note":n.get("note","not yet modelled")})
        continue
    st=n.get("status") or ("partial" if any(x.endswith('_partial') or '_refuted' in x for x in t) else "proved")
    claims.append({"property":p,"status":st,"theorems":t,"note":n.get("note","")})
json.dump({"claims":claims},open('/verif/MANIFEST.json','w'),indent=1)
c=collections.Counter(x['status'] for x in claims); print(c)
