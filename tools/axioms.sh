#!/bin/sh
# Print the axioms every theorem of MANIFEST.json depends on (run in /verif after `lake build`).
cd "$(dirname "$0")/../lean" || exit 1
python3 - > /tmp/axioms.lean <<'P'
import json
m=json.load(open('../MANIFEST.json'))
print('import Verif')
for t in sorted({t for c in m['claims'] for t in c['theorems']}):
    print('#print axioms', t)
P
lake env lean /tmp/axioms.lean
