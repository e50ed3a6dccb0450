#!/usr/bin/env python3
"""Writes DESIGN.md: tools/design_head.md followed by the table of properties (from MANIFEST.json, properties.jsonl)."""
import json, os, re, glob
root = os.path.dirname(os.path.dirname(os.path.abspath(__file__)))
m = json.load(open(root + '/MANIFEST.json'))
ps = {}
for l in open(root + '/properties.jsonl'):
    if l.strip():
        p = json.loads(l); ps[p['id']] = p
where = {}
for f in glob.glob(root + '/lean/Verif/**/*.lean', recursive=True):
    mod = os.path.relpath(f, root + '/lean')
    for l in open(f):
        k = re.match(r"(?:protected )?theorem (\S+)", l)
        if k: where.setdefault(k.group(1).split('.')[-1], set()).add(mod[6:-5])
out = open(root + '/tools/design_head.md').read().rstrip() + '\n\n## Properties\n\n'
out += ('Status, modules with the theorems, and the scope of the result. A *partial* property is one that the code, as it '
        'is, does not have in full: the theorems give the exact part that holds, and concrete witnesses (theorems too) '
        'where it fails.\n\n')
for c in m['claims']:
    p = ps[c['property']]
    mods = sorted(set(x for t in c['theorems'] for x in where.get(t.split('.')[-1], [])))
    out += f"* **{c['property']} {p['title']}** ({c['status']}; {', '.join(mods)}). {p['statement']}\n"
    out += f"  Theorems: {', '.join('`'+t.replace('Buxn.','')+'`' for t in c['theorems'])}.\n"
    if c['note']: out += f"  {c['note']}\n"
open(root + '/DESIGN.md', 'w').write(out)
