#!/usr/bin/env python3
"""Collect property theorems (named Cnn_...) from lean/Verif/Props into MANIFEST.json."""
import json, re, pathlib
root = pathlib.Path(__file__).resolve().parent.parent
notes = json.loads((root / 'tools/notes.json').read_text())
thms = {}
for f in sorted((root / 'lean/Verif/Props').glob('*.lean')):
    ns = []
    for line in f.read_text().splitlines():
        m = re.match(r'namespace (\S+)', line)
        if m: ns.append(m.group(1))
        m = re.match(r'end (\S+)', line)
        if m and ns and ns[-1] == m.group(1): ns.pop()
        m = re.match(r'(?:protected |private )?theorem (C\d\d+\w*)', line)
        if m:
            name = m.group(1)
            thms.setdefault(re.match(r'C\d+', name).group(), []).append('.'.join(ns + [name]))
claims = []
for l in (root / 'properties.jsonl').read_text().splitlines():
    p = json.loads(l)['id']
    n = notes.get(p, {})
    t = thms.get(p, [])
    if not t and n.get('status') != 'not_applicable':
        print('no theorem yet:', p)
        continue
    status = n.get('status', 'proved')
    note = n.get('note', '')
    claims.append({'property': p, 'status': status, 'theorems': t, 'note': note})
(root / 'MANIFEST.json').write_text(json.dumps({'claims': claims}, indent=1) + '\n')
mods = sorted('.'.join(p.relative_to(root / 'lean').with_suffix('').parts) for p in (root / 'lean/Verif').rglob('*.lean'))
(root / 'lean/Verif.lean').write_text(''.join(f'import {m}\n' for m in mods))
print({c['property']: (c['status'], len(c['theorems'])) for c in claims})
