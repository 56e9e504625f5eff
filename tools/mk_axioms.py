#!/usr/bin/env python3
"""Write the axioms each property theorem depends on into DESIGN.md (run from /verif after `lake build`)."""
import subprocess, tempfile, re, collections
SRC = r'''import Verif
open Lean
run_cmd do
  let env ← getEnv
  for (n, ci) in env.constants.map₁.toList do
    if (`Verif).isPrefixOf n && !n.isInternal then
      match n, ci with
      | .str _ s, .thmInfo _ =>
        if s.startsWith "C" && ((s.toList.drop 1).take 2).all Char.isDigit && s.length > 3 then
          let ax ← Lean.Elab.Command.liftCoreM (collectAxioms n)
          let l := (ax.toList.map toString).mergeSort
          IO.println s!"{s} {String.intercalate "," l}"
      | _, _ => pure ()
'''
f = tempfile.NamedTemporaryFile('w', suffix='.lean', delete=False); f.write(SRC); f.close()
out = subprocess.run(['lake', 'env', 'lean', f.name], cwd='lean', capture_output=True, text=True)
g = collections.defaultdict(list)
for l in out.stdout.splitlines():
    p = l.split(' ')
    if re.match(r'C\d+_', p[0]):
        g[p[1] if len(p) > 1 else ''].append(p[0])
allowed = {'propext', 'Classical.choice', 'Quot.sound'}
for k in g:
    assert set(x for x in k.split(',') if x) <= allowed, k
lines = []
big = max(g, key=lambda k: len(g[k]))
for k in sorted(g, key=lambda k: len(g[k])):
    name = ', '.join('`%s`' % x for x in k.split(',') if x) or 'no axiom'
    if k == big:
        lines.append('* %s: all other property theorems (%d).' % (name, len(g[k])))
    else:
        lines.append('* %s: %s.' % (name, ', '.join('`%s`' % t for t in sorted(g[k], key=lambda t: (int(re.match(r'C(\d+)', t)[1]), t)))))
d = open('DESIGN.md').read()
a, b = '<!-- axioms begin -->\n', '<!-- axioms end -->'
i, j = d.index(a) + len(a), d.index(b)
open('DESIGN.md', 'w').write(d[:i] + '\n'.join(lines) + '\n' + d[j:])
print({k: len(v) for k, v in g.items()})
