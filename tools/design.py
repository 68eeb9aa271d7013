#!/usr/bin/env python3
"""Regenerate the per-property section of DESIGN.md.

Uses MANIFEST.json, properties.jsonl, tools/approach.json and tools/axioms.tsv.  The last file is the output of
`cd lean; lake env lean ../tools/axioms.lean.txt > ../tools/axioms.tsv`.
"""
import glob
import json
import re

ROOT = '/verif/'
START = '<!-- properties: generated by tools/design.py -->'

props = [json.loads(l) for l in open(ROOT + 'properties.jsonl') if l.strip()]
claims = {c['property']: c for c in json.load(open(ROOT + 'MANIFEST.json'))['claims']}
approach = json.load(open(ROOT + 'tools/approach.json'))
axioms = {}
for line in open(ROOT + 'tools/axioms.tsv'):
    if '\t' in line:
        n, a = line.rstrip('\n').split('\t')
        axioms[n] = [x for x in a.split(', ') if x]
module = {}
for f in sorted(glob.glob(ROOT + 'lean/Verif/Props/*.lean')):
    for n in re.findall(r'^theorem (C\d\d_\w+)', open(f).read(), re.M):
        module[n] = f.split('/')[-1]

out = [START, '', '## Properties', '']
for p in props:
    i = p['id']
    c = claims[i]
    names = [t.split('.')[-1] for t in c['theorems']]
    ax = sorted({a for t in c['theorems'] for a in axioms.get(t, [])})
    mods = sorted({module[n] for n in names if n in module})
    out.append(f'### {i} {p["title"]}: {c["status"]}')
    out.append('')
    if i in approach:
        out.append(f'* Model: {approach[i]}')
    out.append(f'* Result: {c["note"]}')
    out.append(f'* Theorems ({", ".join("Props/" + m for m in mods)}): ' + ', '.join(f'`{n}`' for n in names))
    out.append('* Axioms: ' + (', '.join(ax) if ax else 'none'))
    out.append('')

path = ROOT + 'DESIGN.md'
text = open(path).read()
head = text.split(START)[0].rstrip() + '\n\n'
open(path, 'w').write(head + '\n'.join(out).rstrip() + '\n')
print(len(props), 'properties')
