#!/usr/bin/env python3
"""List every citation in the model with the first and last line of code it names (for checking by eye)."""
import re, glob, os, sys
R='/repo'
idx={}
for d,_,fs in os.walk(R):
    if '.git' in d: continue
    for f in fs: idx.setdefault(f,[]).append(os.path.join(d,f))
for p in sorted(glob.glob('/verif/lean/Verif/Model/*.lean')):
    if len(sys.argv)>1 and sys.argv[1] not in p: continue
    s=open(p).read()
    s2=s.replace('\n',' \n')
    last=None
    for m in re.finditer(r'([\w\-/\.]+\.(?:cpp|hpp|c|h|txt)):(\d+)(?:-(\d+))?((?:,\s+(?:and\s+)?\d+(?:-\d+)?)*)',s):
        f=m.group(1); base=os.path.basename(f)
        c=[x for x in idx.get(base,[]) if x.endswith(f)] or idx.get(base,[])
        ln=s[:m.start()].count('\n')+1
        if not c: print(p,ln,'NOFILE',f); continue
        src=open(c[0]).read().split('\n')
        rs=[(m.group(2),m.group(3))]+[(a,b) for a,b in re.findall(r'(\d+)(?:-(\d+))?',m.group(4) or '')]
        for a,b in rs:
            a=int(a); b=int(b or a)
            g=lambda i: src[i-1].strip()[:70] if 0<i<=len(src) else 'OUT OF RANGE'
            print(f"{os.path.basename(p)}:{ln} {base}:{a}-{b} | {g(a)} ... {g(b) if b!=a else ''}")
