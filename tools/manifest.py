#!/usr/bin/env python3
"""Regenerate MANIFEST.json from the theorem names in lean/Verif/Props and the notes below."""
import json, re, glob, os
root = os.path.dirname(os.path.dirname(os.path.abspath(__file__)))
notes = json.load(open(os.path.join(root, 'tools', 'notes.json')))
thms = {}
for f in sorted(glob.glob(os.path.join(root, 'lean/Verif/Props/*.lean'))):
    for m in re.finditer(r'^theorem (C\d\d+)_(\w+)', open(f).read(), re.M):
        thms.setdefault(m.group(1), []).append('Jsval.%s_%s' % (m.group(1), m.group(2)))
claims = []
for line in open(os.path.join(root, 'properties.jsonl')):
    d = json.loads(line)
    i = d['id']
    if i not in thms:
        continue
    partial = any(t.endswith('_partial') or t.endswith('_refuted') for t in thms[i])
    n = notes.get(i, {})
    status = n.get('status', 'partial' if partial else 'proved')
    claims.append({'property': i, 'status': status, 'theorems': thms[i], 'note': n.get('note', '')})
json.dump({'claims': claims}, open(os.path.join(root, 'MANIFEST.json'), 'w'), indent=1, ensure_ascii=False)
print(len(claims), 'claims', sum(len(c['theorems']) for c in claims), 'theorems')
