#!/usr/bin/env python3
"""Regenerates MANIFEST.json: collects theorems named Cxx_* from the Lean sources."""
import json, os, re
root = os.path.dirname(os.path.dirname(os.path.abspath(__file__)))
notes = json.load(open(os.path.join(root, 'tools', 'manifest_notes.json')))
props = [json.loads(l)['id'] for l in open(os.path.join(root, 'properties.jsonl'))]
found = {p: [] for p in props}
for d, _, fs in sorted(os.walk(os.path.join(root, 'lean', 'Verif'))):
    for f in sorted(fs):
        if not f.endswith('.lean'):
            continue
        ns = []
        for line in open(os.path.join(d, f)):
            m = re.match(r'namespace (\S+)', line)
            if m:
                ns.append(m.group(1))
            m = re.match(r'end (\S+)', line)
            if m and ns and ns[-1] == m.group(1):
                ns.pop()
            m = re.match(r'theorem (C(\d\d+)_\S+)', line)
            if m:
                found.setdefault('C' + m.group(2), []).append('.'.join(ns + [m.group(1)]))
claims = []
for p in sorted(found):
    n = notes.get(p, {})
    th = found[p]
    if not th and 'status' not in n:
        continue
    status = n.get('status') or ('partial' if all(t.endswith('_partial') for t in th) else 'proved')
    claims.append({'property': p, 'status': status, 'theorems': th, 'note': n.get('note', '')})
json.dump({'claims': claims}, open(os.path.join(root, 'MANIFEST.json'), 'w'), indent=1, ensure_ascii=False)
print({c['property']: (c['status'], len(c['theorems'])) for c in claims})
print('missing', [p for p in props if p not in [c['property'] for c in claims]])
