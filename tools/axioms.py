#!/usr/bin/env python3
"""Lists the axioms that each theorem of MANIFEST.json depends on, between the markers in DESIGN.md."""
import json, os, re, subprocess, collections
root = os.path.dirname(os.path.dirname(os.path.abspath(__file__)))
names = [t for c in json.load(open(os.path.join(root, 'MANIFEST.json')))['claims'] for t in c['theorems']]
src = 'import Verif\n' + ''.join('#print axioms %s\n' % n for n in names)
path = '/tmp/axioms_check.lean'
open(path, 'w').write(src)
out = subprocess.run(['lake', 'env', 'lean', path], cwd=os.path.join(root, 'lean'), capture_output=True, text=True).stdout
out = re.sub(r',\n\s*', ', ', out)
groups = collections.OrderedDict()
seen = set()
for m in re.finditer(r"'([^']+)' (does not depend on any axioms|depends on axioms: \[([^\]]*)\])", out):
    key = ', '.join(sorted((m.group(3) or '').replace('\n', ' ').split(', '))) if m.group(3) else 'none'
    groups.setdefault(key, []).append(m.group(1).replace('Verif.', ''))
    seen.add(m.group(1))
missing = [n for n in names if n not in seen]
assert not missing, missing
text = ''
for k in sorted(groups, key=len):
    text += '\n* **%s** (%d): %s\n' % (k, len(groups[k]), ', '.join(groups[k]))
p = os.path.join(root, 'DESIGN.md')
s = open(p).read()
a, b = '<!-- axioms -->', '<!-- end axioms -->'
s = s[:s.index(a) + len(a)] + text + s[s.index(b):]
open(p, 'w').write(s)
print({k: len(v) for k, v in groups.items()})
