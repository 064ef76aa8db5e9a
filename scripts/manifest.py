#!/usr/bin/env python3
"""Regenerate MANIFEST.json: the theorems named Cnn_* in lean/Verif/Props, with the notes of scripts/notes.json."""
import json, re, glob, os
root = os.path.dirname(os.path.dirname(os.path.abspath(__file__)))
props = [json.loads(l) for l in open(root + '/properties.jsonl') if l.strip()]
notes = json.load(open(root + '/scripts/notes.json'))
found = {}
for f in sorted(glob.glob(root + '/lean/Verif/Props/*.lean')):
    ns = []
    for line in open(f):
        m = re.match(r'namespace (\S+)', line)
        if m: ns.append(m.group(1))
        m = re.match(r'end (\S+)', line)
        if m and ns and ns[-1] == m.group(1): ns.pop()
        m = re.match(r'theorem (C\d+)(_\S*)', line)
        if m: found.setdefault(m.group(1), []).append('.'.join(ns + [m.group(1) + m.group(2)]))
claims = []
for p in props:
    i = p['id']; ts = found.get(i, []); n = notes.get(i, {})
    if not ts: print('no theorem for', i)
    status = n.get('status') or ('not_applicable' if not ts else 'partial' if any('_partial' in t or 'counterexample' in t for t in ts) else 'proved')
    claims.append({'property': i, 'status': status, 'theorems': ts, 'note': n.get('note', '')})
json.dump({'claims': claims}, open(root + '/MANIFEST.json', 'w'), indent=1, ensure_ascii=False)
