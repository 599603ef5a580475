#!/usr/bin/env python3
"""Build MANIFEST.json: theorems named C<nn>_... in lean/Verif/Props are collected
per property; status and note come from STATUS below."""
import json, os, re, glob
root = os.path.join(os.path.dirname(os.path.abspath(__file__)), '..')
from status import STATUS
thms = {}
for f in sorted(glob.glob(root + '/lean/Verif/Props/*.lean')):
    ns = []
    for line in open(f):
        m = re.match(r'namespace (\S+)', line)
        if m: ns.append(m.group(1))
        m = re.match(r'end (\S+)', line)
        if m and ns and ns[-1] == m.group(1): ns.pop()
        m = re.match(r'(?:private |protected )?theorem (C(\d\d\d?)_\S+)', line)
        if m:
            thms.setdefault('C' + m.group(2), []).append('.'.join(ns + [m.group(1)]))
claims = []
for line in open(root + '/properties.jsonl'):
    d = json.loads(line); i = d['id']
    st, note = STATUS.get(i, (None, ''))
    t = thms.get(i, [])
    if st is None or (not t and st != 'not_applicable'):
        print('no claim yet:', i); continue
    claims.append(dict(property=i, status=st, theorems=t, note=note))
for i in thms:
    if i not in STATUS: print('no status for', i)
json.dump({'claims': claims}, open(root + '/MANIFEST.json', 'w'), indent=1)
print(len(claims), 'claims', sum(len(c['theorems']) for c in claims), 'theorems')
