#!/usr/bin/env python3
"""Regenerates MANIFEST.json: theorem names are collected from lean/Verif/Props, statuses and notes are below."""
import json, re, glob, os
root = os.path.dirname(os.path.dirname(os.path.abspath(__file__)))
props = [json.loads(l) for l in open(root + '/properties.jsonl')]
thms = {}
for f in sorted(glob.glob(root + '/lean/Verif/Props/*.lean')):
    for m in re.finditer(r'^theorem (C\d\d\w*)', open(f).read(), re.M):
        thms.setdefault(m.group(1)[:3], []).append('Savior.' + m.group(1))
N = json.load(open(root + '/tools/notes.json'))
claims = []
for p in props:
    i = p['id']
    st, note = N.get(i, ["", ""])[:2]
    extra = []
    if len(N.get(i, [])) > 2:
        extra = ['Savior.' + x for x in N[i][2]]
    t = thms.get(i, []) + extra
    if not t:
        print('no theorem yet:', i)
        if st != 'not_applicable':
            continue
    if not st:
        print('no status:', i); st = 'partial'
    claims.append({"property": i, "status": st, "theorems": t, "note": note})
with open(root + '/MANIFEST.json', 'w') as f:
    f.write('{"claims": [\n' + ',\n'.join(' ' + json.dumps(c) for c in claims) + '\n]}\n')
