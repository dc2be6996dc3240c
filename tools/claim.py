#!/usr/bin/env python3
"""Set or replace one claim in MANIFEST.json: claim.py C01 proved "note" Thm1 Thm2 ...
A short theorem name is completed with the namespace of the file that declares it."""
import json, sys, re, glob
p='/verif/MANIFEST.json'
def full(name):
    if name.startswith('Asteria.'): return name
    hits=set()
    for f in glob.glob('/verif/lean/Verif/**/*.lean',recursive=True):
        ns=[]
        for line in open(f):
            m=re.match(r'namespace (\S+)',line)
            if m: ns.append(m.group(1)); continue
            m=re.match(r'end (\S+)',line)
            if m and ns and ns[-1]==m.group(1): ns.pop(); continue
            m=re.match(r'(?:private |protected )?theorem (\S+)',line)
            if m and m.group(1).split('{')[0]==name: hits.add('.'.join(ns+[name]))
    if len(hits)!=1: sys.exit(f'{name}: {hits}')
    return hits.pop()
m=json.load(open(p))
pid,status,note,*th=sys.argv[1:]
m['claims']=[c for c in m['claims'] if c['property']!=pid]
m['claims'].append(dict(property=pid,status=status,theorems=[full(t) for t in th],note=note))
m['claims'].sort(key=lambda c:(len(c['property']),c['property']))
json.dump(m,open(p,'w'),indent=1)
