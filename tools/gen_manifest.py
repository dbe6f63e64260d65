#!/usr/bin/env python3
"""Regenerate MANIFEST.json from the table below, checking every theorem name exists in lean/Verif/Props."""
import json, re, glob, os
root = os.path.join(os.path.dirname(__file__), '..')
names=set()
for f in glob.glob(os.path.join(root,'lean/Verif/**/*.lean'), recursive=True):
    ns=[]
    for line in open(f):
        m=re.match(r'namespace (\S+)',line)
        if m: ns.append(m.group(1))
        m=re.match(r'end (\S+)',line)
        if m and ns and ns[-1]==m.group(1): ns.pop()
        m=re.match(r'(?:private )?(?:protected )?theorem ([^\s:({\[]+)',line)
        if m: names.add('.'.join(ns+[m.group(1)]))
exec(open(os.path.join(root,'tools/manifest_data.py')).read())
props=[json.loads(l)['id'] for l in open(os.path.join(root,'properties.jsonl'))]
claims=[]
for pid in props:
    if pid not in CLAIMS: print('no claim yet for',pid); continue
    st,ths,note=CLAIMS[pid]
    full=[]
    for t in ths:
        q='Pgfe.Props.'+t
        if q not in names: print('MISSING',q)
        full.append(q)
    claims.append({"property":pid,"status":st,"theorems":full,"note":note})
json.dump({"claims":claims},open(os.path.join(root,'MANIFEST.json'),'w'),indent=1,ensure_ascii=False)
print(len(claims),'claims')
