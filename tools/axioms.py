#!/usr/bin/env python3
"""Writes AXIOMS.md: the axioms each theorem of MANIFEST.json depends on, as printed by
`#print axioms`.  Needs a finished `lake build` in lean/."""
import json, os, re, subprocess, tempfile
here = os.path.join(os.path.dirname(os.path.abspath(__file__)), '..')
names = [t for c in json.load(open(os.path.join(here, 'MANIFEST.json')))['claims'] for t in c['theorems']]
src = 'import Verif\n' + ''.join('#print axioms %s\n' % n for n in names)
with tempfile.NamedTemporaryFile('w', suffix='.lean', delete=False) as f:
    f.write(src)
out = subprocess.run(['lake', 'env', 'lean', f.name], cwd=os.path.join(here, 'lean'),
                     capture_output=True, text=True).stdout
os.unlink(f.name)
out = re.sub(r'\s+', ' ', out)
found = {}
for m in re.finditer(r"'([^']+)' (does not depend on any axioms|depends on axioms: \[([^\]]*)\])", out):
    found[m.group(1)] = m.group(3) or ''
groups = {}
for n in names:
    groups.setdefault(found[n], []).append(n)
with open(os.path.join(here, 'AXIOMS.md'), 'w') as f:
    f.write('# Axioms of the theorems in MANIFEST.json\n\nWritten by `tools/axioms.py` from the output of `#print axioms`.\n')
    for g in sorted(groups):
        f.write('\n## %s\n\n' % (g or 'none'))
        for n in groups[g]: f.write('* `%s`\n' % n)
print({g: len(v) for g, v in groups.items()})
