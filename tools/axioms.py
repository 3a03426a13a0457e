#!/usr/bin/env python3
"""Print, for every theorem of MANIFEST.json, the axioms it depends on, as the table kept in AXIOMS.md.
Run after `lake build`; the query file is written outside the project."""
import json, re, os, subprocess, tempfile
root = os.path.dirname(os.path.dirname(os.path.abspath(__file__)))
claims = json.load(open(os.path.join(root, 'MANIFEST.json')))['claims']
names = [t for c in claims for t in c['theorems']]
with tempfile.NamedTemporaryFile('w', suffix='.lean', delete=False) as f:
    f.write('import Verif\n' + ''.join('#print axioms %s\n' % n for n in names))
out = subprocess.run(['lake', 'env', 'lean', f.name], cwd=os.path.join(root, 'lean'), capture_output=True, text=True).stdout
os.unlink(f.name)
ax = {}
for m in re.finditer(r"'([^']+)' (does not depend on any axioms|depends on axioms: \[([^\]]*)\])", out):
    ax[m.group(1)] = 'none' if m.group(3) is None else ', '.join(x.strip() for x in m.group(3).split(','))
missing = [n for n in names if n not in ax]
assert not missing, missing
lines = ['# Axioms each theorem depends on', '', 'Generated by `tools/axioms.py` from `#print axioms`.', '']
groups = {}
for n in names:
    groups.setdefault(ax[n], []).append(n.removeprefix('Jsval.'))
for g in sorted(groups, key=lambda g: (len(g.split(',')), g)):
    lines += ['## %s (%d theorems)' % (g, len(groups[g])), '', ', '.join('`%s`' % n for n in groups[g]), '']
open(os.path.join(root, 'AXIOMS.md'), 'w').write('\n'.join(lines))
print({g: len(v) for g, v in groups.items()})
