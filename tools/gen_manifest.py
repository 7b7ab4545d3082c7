#!/usr/bin/env python3
"""Regenerates MANIFEST.json: scans lean/Verif/Props for theorems named Cnn_*."""
import re, json, glob, os
root = os.path.dirname(os.path.dirname(os.path.abspath(__file__)))
notes = json.load(open(os.path.join(root, 'tools', 'notes.json')))
thms = {}
for f in sorted(glob.glob(os.path.join(root, 'lean/Verif/Props/*.lean'))):
    ns = []
    for line in open(f):
        m = re.match(r'\s*namespace (\S+)', line)
        if m: ns.append(m.group(1)); continue
        m = re.match(r'\s*end (\S+)\s*$', line)
        if m and ns and ns[-1] == m.group(1): ns.pop(); continue
        m = re.match(r'\s*theorem (C\d\d)(_\S+)', line)
        if m: thms.setdefault(m.group(1), []).append('.'.join(ns + [m.group(1) + m.group(2)]))
claims = []
for line in open(os.path.join(root, 'properties.jsonl')):
    pid = json.loads(line)['id']
    n = notes.get(pid, {})
    ts = thms.get(pid, [])
    if not ts and 'status' not in n: continue
    st = n.get('status', 'proved')
    claims.append({'property': pid, 'status': st, 'theorems': ts, 'note': n.get('note', '')})
json.dump({'claims': claims}, open(os.path.join(root, 'MANIFEST.json'), 'w'), indent=1)
print(len(claims), 'claims', sum(len(c['theorems']) for c in claims), 'theorems')
