#!/usr/bin/env python3
"""List lines of /repo/src and of inline code in /repo/include that no citation in lean/Verif/Model covers."""
import re, glob, os, collections
files = {}
for root in ('/repo/src', '/repo/include'):
    for d, _, fs in os.walk(root):
        for f in fs:
            files.setdefault(f, []).append(os.path.join(d, f))
cited = collections.defaultdict(set)
for m in glob.glob('/verif/lean/Verif/Model/*.lean'):
    s = open(m).read()
    s = re.sub(r'\s+', ' ', s)
    for c in re.finditer(r'([\w./-]+\.(?:c|h|cpp|hpp)):((?:\d+(?:-\d+)?(?:, | and )?)+)', s):
        name = os.path.basename(c[1])
        for r in re.findall(r'\d+(?:-\d+)?', c[2]):
            a, _, b = r.partition('-')
            for l in range(int(a), int(b or a) + 1): cited[name].add(l)
    # "lines 12-15" after a citation of a file: attributed to the last file named
    last = None
    for t in re.finditer(r'([\w./-]+\.(?:c|h|cpp|hpp)):\d+|lines? (\d+)(?:-(\d+))?(?:(?:, | and )(\d+)(?:-(\d+))?)?', s):
        if t[1]: last = os.path.basename(t[1])
        elif last:
            for a, b in ((t[2], t[3]), (t[4], t[5])):
                if a:
                    for l in range(int(a), int(b or a) + 1): cited[last].add(l)
import sys
for f, ps in sorted(files.items()):
    if not f.endswith(('.c', '.cpp')) and len(sys.argv) < 2: continue
    for p in ps:
        out = []
        for i, l in enumerate(open(p), 1):
            t = l.strip().rstrip('\\').strip()
            if i in cited[f] or not t or t in '{};' or t.startswith(('//', '#include', '#if', '#endif', '#else', '#error', '/*', '*', 'using', 'namespace', '}', 'extern')) : continue
            out.append('%5d %s' % (i, t[:110]))
        if out:
            print('==', p); print('\n'.join(out))
