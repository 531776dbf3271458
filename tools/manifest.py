#!/usr/bin/env python3
"""Regenerate MANIFEST.json: theorem names are collected from lean/Verif/Props/*.lean."""
import re, json, glob, os, sys
root = os.path.dirname(os.path.dirname(os.path.abspath(__file__)))
sys.path.insert(0, os.path.join(root, 'tools'))
from notes import NOTES
th = {}
for f in sorted(glob.glob(root + '/lean/Verif/Props/*.lean')):
    ns = []
    for line in open(f):
        m = re.match(r'namespace (\S+)', line)
        if m: ns.append(m.group(1))
        m = re.match(r'end (\S+)', line)
        if m and ns and ns[-1] == m.group(1): ns.pop()
        m = re.match(r'(?:@\[[^\]]*\] )?theorem ((C\d\d+)_\S+)', line)
        if m: th.setdefault(m.group(2), []).append('.'.join(ns + [m.group(1)]))
claims = []
for l in open(root + '/properties.jsonl'):
    i = json.loads(l)['id']
    status, note = NOTES.get(i, (None, None))
    if i not in th or status is None:
        if th.get(i): print('no note for', i)
        continue
    claims.append({'property': i, 'status': status, 'theorems': th[i], 'note': note})
json.dump({'claims': claims}, open(root + '/MANIFEST.json', 'w'), indent=1)
print(len(claims), 'claims', sum(len(c['theorems']) for c in claims), 'theorems')
