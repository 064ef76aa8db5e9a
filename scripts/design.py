#!/usr/bin/env python3
"""Regenerate DESIGN.md: scripts/design_head.md, then one entry per property (MANIFEST.json, scripts/how.json), then
the axioms of each theorem. The axioms come from the file given as first argument: the output of `#print axioms` for
the theorems of MANIFEST.json (scripts/axioms.sh)."""
import json, os, re, sys
root = os.path.dirname(os.path.dirname(os.path.abspath(__file__)))
props = [json.loads(l) for l in open(root + '/properties.jsonl') if l.strip()]
man = {c['property']: c for c in json.load(open(root + '/MANIFEST.json'))['claims']}
how = json.load(open(root + '/scripts/how.json'))
ax = {}
for m in re.finditer(r"'([^']+)' (?:depends on axioms:\s*\[([^\]]*)\]|does not depend on any axioms)", open(sys.argv[1]).read()):
    ax[m.group(1)] = tuple(x.strip() for x in (m.group(2) or '').split(',') if x.strip())
out = open(root + '/scripts/design_head.md').read()
out += '\n## The properties\n\n'
for p in props:
    c = man[p['id']]; h = how.get(p['id'], {'model': '', 'how': ''})
    out += f"**{p['id']} {p['title']}** ({c['status']}). Modelled: {h['model']}. Proof: {h['how']}. {c['note']}\n"
    out += 'Theorems: ' + ', '.join('`%s`' % t for t in c['theorems']) + '\n\n'
out += '## Axioms of each theorem\n\nNo theorem depends on an axiom outside `propext`, `Classical.choice`, `Quot.sound`.\n\n'
groups = {}
for c in man.values():
    for t in c['theorems']:
        if t not in ax: print('no axioms for', t)
        groups.setdefault(ax.get(t), []).append(t)
for g, ts in sorted(groups.items(), key=lambda x: -len(x[1])):
    if g is not None and set(g) - {'propext', 'Classical.choice', 'Quot.sound'}: print('UNEXPECTED', g, ts)
    out += ('* ' + (', '.join('`%s`' % x for x in g) if g else 'no axioms') + f' ({len(ts)}): ' + ', '.join('`%s`' % t.replace('Verif.', '') for t in ts) + '\n')
open(root + '/DESIGN.md', 'w').write(out)
