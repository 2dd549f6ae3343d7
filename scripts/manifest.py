#!/usr/bin/env python3
"""Regenerate MANIFEST.json from the theorem names in lean/Verif and scripts/status.json."""
import json, re, glob, os
root = os.path.dirname(os.path.dirname(os.path.abspath(__file__)))
status = json.load(open(os.path.join(root, 'scripts', 'status.json')))
props = [json.loads(l) for l in open(os.path.join(root, 'properties.jsonl')) if l.strip()]
thms = {}
for f in sorted(glob.glob(os.path.join(root, 'lean/Verif/**/*.lean'), recursive=True)):
    ns = []
    for line in open(f):
        m = re.match(r'namespace\s+(\S+)', line)
        if m: ns.append(m.group(1))
        m = re.match(r'end\s+(\S+)\s*$', line)
        if m and ns and ns[-1] == m.group(1): ns.pop()
        m = re.match(r'theorem\s+(C\d+)_(\S+)', line)
        if m:
            name = '.'.join(ns + [m.group(1) + '_' + m.group(2)])
            thms.setdefault(m.group(1), []).append(name)
claims = []
for p in props:
    i = p['id']
    if i in thms and i in status:
        claims.append(dict(property=i, status=status[i][0], theorems=thms[i], note=status[i][1]))
    elif i in status and status[i][0] == 'not_applicable':
        claims.append(dict(property=i, status='not_applicable', theorems=[], note=status[i][1]))
json.dump(dict(claims=claims), open(os.path.join(root, 'MANIFEST.json'), 'w'), indent=1, ensure_ascii=False)
print(len(claims), 'claims;', 'missing status:', [i for i in thms if i not in status],
      'no theorem yet:', [p['id'] for p in props if p['id'] not in thms])
