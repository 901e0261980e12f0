#!/usr/bin/env python3
"""Regenerate MANIFEST.json: property theorems are the `theorem Cnn_...` of lean/Verif/Props."""
import glob, json, os, re
root = os.path.dirname(os.path.dirname(os.path.abspath(__file__)))
thms = {}
for f in sorted(glob.glob(root + '/lean/Verif/Props/*.lean')):
    ns = []
    for line in open(f):
        m = re.match(r'namespace (\S+)', line)
        if m: ns.append(m.group(1))
        m = re.match(r'end (\S+)', line)
        if m and ns and ns[-1] == m.group(1): ns.pop()
        m = re.match(r'theorem (C\d+)_(\S+)', line)
        if m:
            thms.setdefault(m.group(1), []).append('.'.join(ns + [m.group(1) + '_' + m.group(2)]))
notes = json.load(open(root + '/tools/notes.json'))
claims = []
for line in open(root + '/properties.jsonl'):
    pid = json.loads(line)['id']
    t = thms.get(pid, [])
    if not t: continue
    partial = any(x.endswith('_partial') for x in t)
    claims.append({"property": pid, "status": "partial" if partial else "proved", "theorems": t,
                   "note": notes.get(pid, "")})
json.dump({"claims": claims}, open(root + '/MANIFEST.json', 'w'), indent=1)
print(len(claims), 'claims;', sum(len(c['theorems']) for c in claims), 'theorems; no note:',
      [c['property'] for c in claims if not c['note']])
