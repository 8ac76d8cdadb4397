#!/usr/bin/env python3
"""Fill in section 7 of DESIGN.md. Run after a build."""
import json, os, re, subprocess, tempfile
root = os.path.dirname(os.path.dirname(os.path.abspath(__file__)))
claims = json.load(open(root + '/MANIFEST.json'))['claims']
names = [t for c in claims for t in c['theorems']]
with tempfile.NamedTemporaryFile('w', suffix='.lean', delete=False) as h:
    h.write('import Verif\n' + ''.join('#print axioms %s\n' % n for n in names))
out = subprocess.run(['lake', 'env', 'lean', h.name], cwd=root + '/lean', capture_output=True, text=True).stdout
ax = {}
for m in re.finditer(r"'([\w.']+)' (?:depends on axioms: \[([^\]]*)\]|does not depend)", out):
    ax[m.group(1)] = ''.join(k for k, v in (('p', 'propext'), ('q', 'Quot.sound'), ('c', 'Classical.choice')) if v in (m.group(2) or '')) or 'none'
    rest = set(filter(None, (x.strip() for x in (m.group(2) or '').split(',')))) - {'propext', 'Quot.sound', 'Classical.choice'}
    assert not rest, rest
s = open(root + '/DESIGN.md').read()
mark = '<!-- axioms -->'
s = s[:s.index(mark) + len(mark)] + '\n\n| theorem | axioms |\n|---------|--------|\n'
for n in names:
    s += '| `%s` | %s |\n' % (n.split('.')[-1], ax[n])
open(root + '/DESIGN.md', 'w').write(s)
