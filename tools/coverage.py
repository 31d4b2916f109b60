#!/usr/bin/env python3
"""Which functions of /repo/src are cited by the model? Citations are `src/x.rs:a-b` in comments under lean/Verif.

A function counts as cited if a citation overlaps its body. Test modules are left out."""
import re, glob, os
REPO = os.environ.get('REPO', '/repo')
here = os.path.dirname(os.path.abspath(__file__))
cites = {}
for f in glob.glob(here + '/../lean/Verif/**/*.lean', recursive=True):
    text = open(f).read()
    for m in re.finditer(r'src/([\w/]+\.rs)((?::\d+(?:-\d+)?)(?:(?:,| and| with lines)? *`?\d+-\d+`?)*)', text):
        for r in re.finditer(r'(\d+)(?:-(\d+))?', m.group(2)):
            a = int(r.group(1)); b = int(r.group(2) or a)
            cites.setdefault(m.group(1), []).append((a, b))
    for m in re.finditer(r'`(\d+)-(\d+)`|lines (\d+)-(\d+)', text):
        pass
tot = hit = 0
for f in sorted(glob.glob(REPO + '/src/**/*.rs', recursive=True)):
    name = os.path.relpath(f, REPO + '/src')
    lines = open(f).read().split('\n')
    end = next((i for i, l in enumerate(lines) if l.startswith('#[cfg(test)]')), len(lines))
    out = []
    i = 0
    while i < end:
        m = re.match(r'( *)(?:pub(?:\([^)]*\))? )?(?:const )?(?:unsafe )?fn (\w+)', lines[i])
        if m:
            ind = m.group(1); j = i
            while j < end and not (lines[j].startswith(ind + '}') and j > i) and not (j == i and lines[j].rstrip().endswith('}')): j += 1
            n = j - i + 1
            c = any(a <= j + 1 and b >= i + 1 for a, b in cites.get(name, []))
            tot += n; hit += n if c else 0
            if not c: out.append('%s:%d-%d' % (m.group(2), i + 1, j + 1))
            i = j
        i += 1
    if out: print(name, ' '.join(out))
print('%d of %d lines of functions are in cited functions' % (hit, tot))
