"""Regenerate the table of axioms in DESIGN.md (run after `lake build`)."""
import json, os, re, subprocess, tempfile

ROOT = os.path.dirname(os.path.dirname(os.path.abspath(__file__)))
claims = json.load(open(os.path.join(ROOT, 'MANIFEST.json')))['claims']
names = [t for c in claims for t in c['theorems']]
with tempfile.NamedTemporaryFile('w', suffix='.lean', delete=False) as f:
    f.write('import Verif\n' + ''.join('#print axioms %s\n' % n for n in names))
out = subprocess.run(['lake', 'env', 'lean', f.name], cwd=os.path.join(ROOT, 'lean'),
                     capture_output=True, text=True).stdout
os.unlink(f.name)
axioms = {}
for m in re.finditer(r"'([^']+)' (?:depends on axioms: \[([^\]]*)\]|does not depend on any axioms)", out):
    axioms[m[1]] = ', '.join(sorted(m[2].replace('\n', ' ').split(', '))) if m[2] else 'none'
missing = [n for n in names if n not in axioms]
assert not missing, missing
rows = ['| claim | theorem | axioms |', '|---|---|---|']
for c in claims:
    for t in c['theorems']:
        rows.append('| %s | `%s` | %s |' % (c['property'], t.replace('Nagini.', ''), axioms[t]))
path = os.path.join(ROOT, 'DESIGN.md')
text = open(path).read()
a, b = '<!-- axioms begin -->', '<!-- axioms end -->'
assert a in text and b in text
text = text[:text.index(a) + len(a)] + '\n' + '\n'.join(rows) + '\n' + text[text.index(b):]
open(path, 'w').write(text)
print(len(rows) - 2, sorted(set(axioms.values())))
