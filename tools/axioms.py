#!/usr/bin/env python3
"""Prints, grouped by the set of axioms, the theorems of MANIFEST.json (Markdown). Needs a built lean/."""
import json, re, subprocess, collections, os
root = os.path.dirname(os.path.dirname(os.path.abspath(__file__)))
man = json.load(open(root + '/MANIFEST.json'))
names = sorted({t for c in man['claims'] for t in c['theorems']})
src = 'import Verif\n' + ''.join('#print axioms %s\n' % n for n in names)
path = '/tmp/axioms_check.lean'
open(path, 'w').write(src)
out = subprocess.run(['lake', 'env', 'lean', path], cwd=root + '/lean', capture_output=True, text=True).stdout
groups = collections.defaultdict(list)
for m in re.finditer(r"(?m)^'(.+?)' (does not depend on any axioms|depends on axioms: \[([^\]]*)\])", out):
    ax = ', '.join(x.strip() for x in (m.group(3) or '').split(',')) or 'none'
    groups[ax].append(m.group(1))
assert sum(map(len, groups.values())) == len(names), out[:2000]
for ax in sorted(groups):
    print('* **%s** (%d): %s' % (ax, len(groups[ax]), ', '.join('`%s`' % n.replace('Stempy.Props.', '') for n in groups[ax])))
