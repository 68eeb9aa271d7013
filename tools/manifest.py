#!/usr/bin/env python3
"""Regenerate MANIFEST.json from the theorem names in lean/Verif/Props and tools/notes.json."""
import json, re, glob, os
root = os.path.dirname(os.path.dirname(os.path.abspath(__file__)))
ids = [json.loads(l)['id'] for l in open(f'{root}/properties.jsonl')]
notes = json.load(open(f'{root}/tools/notes.json'))
thms = {}
for f in sorted(glob.glob(f'{root}/lean/Verif/Props/*.lean')):
    ns = []
    for line in open(f):
        m = re.match(r'namespace (\S+)', line)
        if m: ns.append(m.group(1)); continue
        m = re.match(r'end (\S+)', line)
        if m and ns and ns[-1] == m.group(1): ns.pop(); continue
        m = re.match(r'(?:private )?theorem (C\d\d+)_(\S+)', line)
        if m:
            thms.setdefault(m.group(1), []).append('.'.join(ns + [m.group(1) + '_' + m.group(2)]))
claims = []
for i in ids:
    t = thms.get(i, [])
    n = notes.get(i, {})
    if not t:
        if n.get('status') == 'not_applicable':
            claims.append({'property': i, 'status': 'not_applicable', 'theorems': [], 'note': n['note']})
        continue
    part = any(x.endswith('_partial') or x.endswith('_violation') for x in t)
    claims.append({'property': i, 'status': n.get('status', 'partial' if part else 'proved'),
                   'theorems': t, 'note': n.get('note', '')})
json.dump({'claims': claims}, open(f'{root}/MANIFEST.json', 'w'), indent=1, ensure_ascii=False)
print(len(claims), 'claims', sum(len(c['theorems']) for c in claims), 'theorems;',
      'missing notes:', [c['property'] for c in claims if not c['note']],
      'unclaimed:', [i for i in ids if i not in [c['property'] for c in claims]])
