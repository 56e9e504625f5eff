#!/usr/bin/env python3
"""Write the list of properties the code violates into DESIGN.md (run from /verif after mk_manifest.py)."""
import json
M = json.load(open('MANIFEST.json'))
P = {}
for l in open('properties.jsonl'):
    p = json.loads(l); P[p['id']] = p
out = []
for c in sorted(M['claims'], key=lambda c: int(c['property'][1:])):
    w = [t.split('.')[-1] for t in c['theorems'] if 'false' in t.split('.')[-1]]
    if not w:
        continue
    out.append('* **%s** %s (%s). %s' % (c['property'], P[c['property']]['title'],
               ', '.join('`%s`' % x for x in w), c.get('note', '')))
d = open('DESIGN.md').read()
a, b = '<!-- disagreements begin -->\n', '<!-- disagreements end -->'
i, j = d.index(a) + len(a), d.index(b)
open('DESIGN.md', 'w').write(d[:i] + '\n'.join(out) + '\n' + d[j:])
print(len(out), 'disagreements')
