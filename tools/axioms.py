#!/usr/bin/env python3
"""Prints, for every theorem in MANIFEST.json, the axioms it depends on; writes AXIOMS.md.  Needs a finished build."""
import json, os, subprocess, re, tempfile
root = os.path.dirname(os.path.dirname(os.path.abspath(__file__)))
m = json.load(open(root + '/MANIFEST.json'))
thms = [t for c in m['claims'] for t in c['theorems']]
with tempfile.NamedTemporaryFile('w', suffix='.lean', delete=False) as f:
    f.write('import Verif\n' + ''.join(f'#print axioms {t}\n' for t in thms))
out = subprocess.run(['lake', 'env', 'lean', f.name], cwd=root + '/lean', capture_output=True, text=True).stdout
os.unlink(f.name)
out = re.sub(r'\n\s+', ' ', out)
by = {}
for t in thms:
    a = re.search(r"'" + re.escape(t) + r"' depends on axioms: \[([^\]]*)\]", out)
    if a: by.setdefault(', '.join(sorted(x.strip() for x in a.group(1).split(','))), []).append(t)
    else:
        assert f"'{t}' does not depend on any axioms" in out, t
        by.setdefault('none', []).append(t)
with open(root + '/AXIOMS.md', 'w') as g:
    g.write('# Axioms each property theorem depends on\n\nWritten by `tools/axioms.py` from `#print axioms`.\n')
    for k in sorted(by):
        g.write(f'\n## {k}\n\n' + '\n'.join(f'* `{t}`' for t in by[k]) + '\n')
print({k: len(v) for k, v in by.items()})
