#!/usr/bin/env python3
"""Ask Lean for the axioms of every theorem named in MANIFEST.json and write the result between the
AXIOMS markers of DESIGN.md. Fails if a theorem does not exist or uses any other axiom than the
three of Lean itself. Needs a finished `lake build`."""
import json, os, re, subprocess, sys
root = os.path.dirname(os.path.dirname(os.path.abspath(__file__)))
man = json.load(open(os.path.join(root, 'MANIFEST.json')))
ths = sorted({t for c in man['claims'] for t in c['theorems']})
src = '/tmp/axioms.lean'
open(src, 'w').write('import Verif\n' + ''.join('#print axioms %s\n' % t for t in ths))
out = subprocess.run(['lake', 'env', 'lean', src], cwd=os.path.join(root, 'lean'), capture_output=True, text=True).stdout
groups = {}
for m in re.finditer(r"'([^']+)' (?:depends on axioms: \[([^\]]*)\]|does not depend on any axioms)", out):
    key = tuple(sorted(x.strip() for x in m.group(2).split(','))) if m.group(2) else ()
    groups.setdefault(key, []).append(m.group(1))
found = {t for g in groups.values() for t in g}
bad = [t for t in ths if t not in found]
bad += [t for k, g in groups.items() if not set(k) <= {'propext', 'Classical.choice', 'Quot.sound'} for t in g]
if bad:
    sys.exit('missing or with other axioms: %s' % bad)
lines = ['']
for k in sorted(groups, key=lambda k: (len(k), k)):
    names = sorted(t.split('.')[-1] for t in groups[k])
    if len(k) == 3:
        lines.append('* `propext`, `Classical.choice`, `Quot.sound`: all the other %d theorems.' % len(names))
    else:
        lines.append('* %s: %s.' % (', '.join('`%s`' % x for x in k) or 'no axioms', ', '.join('`%s`' % n for n in names)))
lines.append('')
p = os.path.join(root, 'DESIGN.md')
s = open(p).read()
a, b = '<!-- AXIOMS -->', '<!-- /AXIOMS -->'
if a in s:
    s = s[:s.index(a) + len(a)] + '\n'.join(lines) + s[s.index(b):]
    open(p, 'w').write(s)
print(len(ths), 'theorems, axioms as expected')
