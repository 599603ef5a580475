#!/usr/bin/env python3
"""Append the results of tools/mutate.py to seeded/LOG.jsonl.

usage: python3 tools/mutlog.py OUT.jsonl [NOTES.json]

NOTES.json maps "definition|breaks" to {tightened: [...], note: ...}.
"""
import json, os, sys
root = os.path.join(os.path.dirname(os.path.abspath(__file__)), '..')
notes = json.load(open(sys.argv[2])) if len(sys.argv) > 2 else {}
path = root + '/seeded/LOG.jsonl'
os.makedirs(root + '/seeded', exist_ok=True)
seen = set()
if os.path.exists(path):
    for l in open(path):
        d = json.loads(l); seen.add((d['definition'], d['claim'], d['edit']))
n = 0
with open(path, 'a') as out:
    for l in open(sys.argv[1]):
        d = json.loads(l); r = d['result']
        if 'error' in r: continue
        edits = d.get('edits') or [dict(old=d['old'], new=d['new'])]
        edit = '; '.join('%s  ==>  %s' % (e['old'], e['new']) for e in edits)
        name = d['file'] + ': ' + d['definition']
        if (name, d['breaks'], edit) in seen: continue
        extra = notes.get(d['definition'] + '|' + d['breaks'], {})
        failed = r.get('failed', [])
        gone = r.get('missing', [])
        e = dict(definition=name, edit=edit, claim=d['breaks'], failed=failed + gone,
                 tightened=extra.get('tightened', []))
        e['note'] = extra.get('note', '' if failed or gone else 'not caught')
        out.write(json.dumps(e) + '\n'); n += 1
print(n, 'entries added')
