#!/usr/bin/env python3
"""Write the axioms that each theorem of MANIFEST.json depends on into DESIGN.md. Needs a finished build."""
import json, os, re, subprocess
here = os.path.dirname(os.path.abspath(__file__))
names = sorted({t for c in json.load(open(here + '/../MANIFEST.json'))['claims'] for t in c['theorems']})
src = 'import Verif\n' + ''.join('#print axioms %s\n' % n for n in names)
out = subprocess.run(['lake', 'env', 'lean', '--stdin'], input=src, cwd=here + '/../lean', capture_output=True, text=True).stdout
out = re.sub(r'\n\s+', ' ', out)
by = {}
for m in re.finditer(r"'(\S+)' (?:depends on axioms: \[([^\]]*)\]|does not depend on any axioms)", out):
    by.setdefault(tuple(sorted((m.group(2) or '').split(', '))), []).append(m.group(1).split('.')[-1])
n = sum(map(len, by.values()))
assert n == len(names), (n, len(names))
text = ''
for ax in sorted(by, key=lambda a: (len(a), a)):
    title = ', '.join('`%s`' % a for a in ax if a) or 'no axioms'
    text += '\n- %s (%d theorems): %s\n' % (title, len(by[ax]), ', '.join(sorted(by[ax])))
p = here + '/../DESIGN.md'
d = open(p).read()
a, b = '<!-- axioms -->\n', '<!-- end axioms -->'
i, j = d.index(a) + len(a), d.index(b)
open(p, 'w').write(d[:i] + text + '\n' + d[j:])
print({k: len(v) for k, v in by.items()})
