#!/usr/bin/env python3
"""Writes DESIGN.md: the text below, a table over properties.jsonl/MANIFEST.json, and the axioms printed by Lean."""
import json, os, re, subprocess, sys
root = os.path.dirname(os.path.dirname(os.path.abspath(__file__)))
props = {}
for l in open(root + '/properties.jsonl'):
    p = json.loads(l); props[p['id']] = p
claims = {c['property']: c for c in json.load(open(root + '/MANIFEST.json'))['claims']}
plan = json.load(open(root + '/tools/plan.json'))
text = open(root + '/tools/design.md').read()

# axioms
ts = list(dict.fromkeys(t for c in claims.values() for t in c['theorems']))
open('/tmp/Ax.lean', 'w').write("import Verif\n" + "\n".join("#print axioms %s" % t for t in ts) + "\n")
out = subprocess.run(['lake', 'env', 'lean', '/tmp/Ax.lean'], cwd=root + '/lean', capture_output=True, text=True).stdout
out = re.sub(r'\n\s+', ' ', out)
ax = {}
for l in out.splitlines():
    m = re.match(r"'(.*)' depends on axioms: \[(.*)\]", l)
    if m: ax[m.group(1)] = m.group(2); continue
    m = re.match(r"'(.*)' does not depend", l)
    if m: ax[m.group(1)] = ''
missing = [t for t in ts if t not in ax]
if missing: sys.exit('no axioms for %s' % missing)

rows = []
for i in sorted(props, key=lambda x: int(x[1:])):
    c = claims.get(i, {'status': '?', 'theorems': [], 'note': ''})
    pl = plan.get(i)
    if pl is None: sys.exit('no plan for ' + i)
    rows.append('### %s %s\n\n*Model and proof.* %s\n\n*Status: %s.* %s\n\nTheorems: %s\n' % (i, props[i]['title'], pl, c['status'], c['note'],
        ', '.join('`%s`' % t.replace('Verif.', '') for t in c['theorems'])))
groups = {}
for t in ts: groups.setdefault(ax[t], []).append(t.replace('Verif.', ''))
axs = []
for g in sorted(groups, key=len):
    axs.append('* %s (%d theorems): %s' % ('no axioms' if not g else '`' + g.replace(', ', '`, `') + '`', len(groups[g]), ', '.join('`%s`' % t for t in groups[g])))
text = text.replace('@@PROPERTIES@@', '\n'.join(rows)).replace('@@AXIOMS@@', '\n'.join(axs))
open(root + '/DESIGN.md', 'w').write(text)
print(len(rows), 'properties', len(ts), 'theorems')
