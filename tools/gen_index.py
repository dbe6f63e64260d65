"""Rewrites the per-property index in DESIGN.md from properties.jsonl, MANIFEST.json."""
import json,re
P=[json.loads(l) for l in open('/verif/properties.jsonl')]
M={c['property']:c for c in json.load(open('/verif/MANIFEST.json'))['claims']}
rows=['<!-- index:begin (tools/gen_index.py) -->','### 3.1 Index, one line per property','',
 '| Id | Property | Modelled files | Status | Main theorem | Remark |','|---|---|---|---|---|---|']
for p in P:
    m=M[p['id']]
    a=p['anchors']
    files=[]
    for x in (a if isinstance(a,list) else [a]):
        x=x if isinstance(x,str) else x.get('file','')
        f=re.split(r'[:# ]',x)[0].split('/')[-1]
        if f and f not in files: files.append(f)
    t=m['theorems'][0].replace('Pgfe.Props.','')
    rows.append('| %s | %s | %s | %s | `%s` (+%d) | %s |'%(p['id'],p['title'].replace('|','/'),', '.join(files),m['status'],t,len(m['theorems'])-1,m['note'].replace('|','/')))
rows+=['<!-- index:end -->']
s=open('/verif/DESIGN.md').read()
blk='\n'.join(rows)
if '<!-- index:begin' in s:
    s=re.sub(r'<!-- index:begin.*?<!-- index:end -->',lambda _:blk,s,flags=re.S)
else:
    k='The current status of each (proved / partial / what is missing) is in `MANIFEST.json`.'
    s=s.replace(k,k+'\n\n'+blk)
open('/verif/DESIGN.md','w').write(s)
