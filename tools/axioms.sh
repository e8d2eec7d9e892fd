#!/bin/sh
# Regenerates AXIOMS.md: the axioms of every theorem named in MANIFEST.json.
cd /verif/lean
python3 - > /tmp/axioms.lean <<'PY'
import json
print('import Verif')
for t in sorted({t for c in json.load(open('/verif/MANIFEST.json'))['claims'] for t in c['theorems']}):
    print('#print axioms', t)
PY
lake env lean /tmp/axioms.lean > /tmp/axioms.out
python3 - <<'PY'
import re
s = ' '.join(open('/tmp/axioms.out').read().split())
rows = re.findall(r"'([\w.']+)' (?:depends on axioms: \[(.*?)\]|does not depend on any axioms)", s)
with open('/verif/AXIOMS.md', 'w') as f:
    f.write('# Axioms of the theorems named in MANIFEST.json\n\n')
    for t, a in rows:
        f.write(f'* `{t}`: {a or "none"}\n')
print(len(rows), sorted({x for _, a in rows for x in a.split(', ')}))
PY
