#!/usr/bin/env python3
"""Writes AXIOMS.md: the axioms of every theorem of MANIFEST.json (run `lake build` in lean/ first)."""
import json, os, re, subprocess, tempfile
root = os.path.dirname(os.path.dirname(os.path.abspath(__file__)))
man = json.load(open(root + '/MANIFEST.json'))
lean = root + '/lean'
names = {}
for c in man['claims']:
    f = f'{lean}/Verif/Props/{c["property"]}.lean'
    ns = []
    for line in open(f):
        m = re.match(r'namespace (\S+)', line)
        if m: ns.append(m.group(1))
        m = re.match(r'end (\S+)\s*$', line)
        if m and ns and ns[-1] == m.group(1): ns.pop()
        m = re.match(r'theorem (\S+)', line)
        if m and m.group(1) in c['theorems']: names[m.group(1)] = '.'.join(ns + [m.group(1)])
    for t in c['theorems']:
        names.setdefault(t, t)
src = 'import Verif\n' + ''.join(f'#print axioms {names[t]}\n' for c in man['claims'] for t in c['theorems'])
with tempfile.NamedTemporaryFile('w', suffix='.lean', delete=False) as h: h.write(src)
out = subprocess.run(['lake', 'env', 'lean', h.name], cwd=lean, capture_output=True, text=True).stdout
os.unlink(h.name)
ax = {}
for m in re.finditer(r"'([^']+)' (depends on axioms: \[([^\]]*)\]|does not depend on any axioms)", out, re.S):
    ax[m.group(1)] = ', '.join(x.strip() for x in m.group(3).split(',')) if m.group(3) else 'none'
with open(root + '/AXIOMS.md', 'w') as o:
    o.write('# Axioms of each theorem\n\nPrinted by `#print axioms`, written by `tools/mkaxioms.py`.\n')
    for c in man['claims']:
        o.write(f'\n## {c["property"]}\n\n')
        for t in c['theorems']:
            o.write(f'- `{names[t]}`: {ax.get(names[t], "?")}\n')
print(len(ax), 'theorems;', sorted({a for v in ax.values() for a in v.split(', ')}), [t for c in man['claims'] for t in c['theorems'] if names[t] not in ax][:5])
