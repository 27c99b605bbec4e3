#!/usr/bin/env python3
"""Write MANIFEST.json from the table below, checking that every named theorem exists in the Lean sources."""
import json, re, glob, os
ROOT = os.path.dirname(os.path.dirname(os.path.abspath(__file__)))
exec(open(os.path.join(ROOT, 'tools', 'claims.py')).read())
names = set()
for f in glob.glob(ROOT + '/lean/Verif/**/*.lean', recursive=True):
    for m in re.finditer(r'^theorem (\S+)', open(f).read(), re.M):
        names.add(m.group(1))
props = [json.loads(l)['id'] for l in open(ROOT + '/properties.jsonl')]
q = lambda t: ('Verif.X64.Props.' if re.match(r'C\d+_x64_', t) else 'Verif.Props.') + t
out = []
for pid in props:
    st, ths, note = CLAIMS.get(pid, ('partial', [], 'not yet modelled'))
    for t in ths:
        assert t in names, (pid, t)
    out.append({'property': pid, 'status': st, 'theorems': [q(t) for t in ths], 'note': note})
listed = {t for c in out for t in c['theorems']}
for n in sorted(names):
    if re.match(r'C\d+_', n) and q(n) not in listed:
        print('unlisted', n)
json.dump({'claims': out}, open(ROOT + '/MANIFEST.json', 'w'), indent=1)
