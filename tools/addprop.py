#!/usr/bin/env python3
"""Append (or replace) properties in properties.jsonl. stdin: blocks separated by blank lines,
each: id | title / S: / Q: / W: / A: lines."""
import sys, json, re, os
P = os.path.join(os.path.dirname(__file__), '..', 'properties.jsonl')
props = {}
for l in open(P):
    if l.strip():
        o = json.loads(l); props[o['id']] = o
for blk in re.split(r'\n\s*\n', sys.stdin.read().strip()):
    ls = blk.strip().split('\n')
    i, t = ls[0].split('|', 1)
    o = {'id': i.strip(), 'title': t.strip()}
    cur = None
    m = {'S:': 'statement', 'Q:': 'quantifier', 'W:': 'why_tests_cant', 'A:': 'anchors'}
    for l in ls[1:]:
        if l[:2] in m:
            cur = m[l[:2]]; o[cur] = l[2:].strip()
        else:
            o[cur] += ' ' + l.strip()
    assert all(k in o for k in m.values()), o
    o['anchors'] = [a.strip() for a in o['anchors'].split(';')]
    props[o['id']] = o
with open(P, 'w') as f:
    for k in sorted(props, key=lambda s: int(s[1:])):
        f.write(json.dumps(props[k]) + '\n')
print(len(props))
