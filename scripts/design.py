import json, re, os
R = '/verif'
how = json.load(open(R + '/scripts/how.json'))
props = [json.loads(l) for l in open(R + '/properties.jsonl')]
man = {c['property']: c for c in json.load(open(R + '/MANIFEST.json'))['claims']}
where = {}
for d, _, fs in os.walk(R + '/lean/Verif'):
    for f in fs:
        p = os.path.join(d, f)
        for m in re.finditer(r'^theorem (C\d+)_', open(p).read(), re.M):
            where.setdefault(m.group(1), set()).add(os.path.relpath(p, R + '/lean'))
out = [open(R + '/scripts/design_head.md').read().rstrip(), '', '## Properties', '']
for p in props:
    i = p['id']
    c = man.get(i)
    out.append(f"### {i} {p['title']}")
    out.append('')
    if c is None:
        out.append('Not proved yet.')
    else:
        out.append(f"* Status: {c['status']}. {c.get('note', '')}".rstrip())
        out.append('* Code: ' + ', '.join('`' + a.replace('src/skmultiflow/', '') + '`' for a in p['anchors']))
        out.append('* Lean: ' + ', '.join('`' + w + '`' for w in sorted(where.get(i, []))))
        out.append('* Theorems: ' + ', '.join('`' + t.split('.')[-1] + '`' for t in c['theorems']))
        if i in how:
            out.append('* How: ' + how[i])
    out.append('')
open(R + '/DESIGN.md', 'w').write('\n'.join(out))
