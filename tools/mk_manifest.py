#!/usr/bin/env python3
"""Writes MANIFEST.json from the table below and the theorem names found in lean/Verif.

Theorems named C<nn>_* in a Props file are attached to property C<nn>.  A property is
"partial" when listed in PARTIAL, otherwise "proved".  Run from anywhere.
"""
import json, os, re
ROOT = os.path.dirname(os.path.dirname(os.path.abspath(__file__)))
NOTES = json.load(open(os.path.join(ROOT, 'tools', 'notes.json')))
props = [json.loads(l) for l in open(os.path.join(ROOT, 'properties.jsonl')) if l.strip()]
found = {}
for d, _, fs in os.walk(os.path.join(ROOT, 'lean', 'Verif')):
    for f in sorted(fs):
        if not f.endswith('.lean'): continue
        ns = []
        for line in open(os.path.join(d, f)):
            m = re.match(r'(namespace|section|end)\b\s*(\S*)', line)
            if m:
                if m[1] == 'namespace': ns.append(('n', m[2]))
                elif m[1] == 'section': ns.append(('s', m[2]))
                elif ns: ns.pop()
            m = re.match(r'theorem (C\d\d\w*)', line)
            if m:
                full = '.'.join([n for k, n in ns if k == 'n'] + [m[1]])
                found.setdefault(re.match(r'C\d+', m[1])[0], []).append(full)
claims = []
for p in props:
    i = p['id']
    if i not in found and i not in NOTES: continue
    n = NOTES.get(i, {})
    status = n.get('status', 'proved' if i in found else 'not_applicable')
    claims.append({'property': i, 'status': status, 'theorems': sorted(found.get(i, [])), 'note': n.get('note', '')})
json.dump({'claims': claims}, open(os.path.join(ROOT, 'MANIFEST.json'), 'w'), indent=1)
print(len(claims), 'claims;', sum(len(c['theorems']) for c in claims), 'theorems; missing:',
      [p['id'] for p in props if p['id'] not in found and p['id'] not in NOTES])
