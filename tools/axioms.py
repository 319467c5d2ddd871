"""Lists the axioms that each theorem of MANIFEST.json depends on, in AXIOMS.md."""
import json, re, subprocess, tempfile, os
root = os.path.dirname(os.path.dirname(os.path.abspath(__file__)))
claims = json.load(open(root + '/MANIFEST.json'))['claims']
names = [t for c in claims for t in c['theorems']]
src = 'import Verif\n' + ''.join('#print axioms %s\n' % n for n in names)
with tempfile.NamedTemporaryFile('w', suffix='.lean', delete=False) as f:
    f.write(src)
out = subprocess.run(['lake', 'env', 'lean', f.name], cwd=root + '/lean', capture_output=True, text=True).stdout
os.unlink(f.name)
found = {}
for m in re.finditer(r"'([^']+)' (depends on axioms: \[([^\]]*)\]|does not depend on any axioms)", out):
    found[m.group(1)] = re.sub(r'\s+', ' ', m.group(3) or '').strip() or 'none'
assert all(n in found for n in names), [n for n in names if n not in found][:5]
allowed = {'propext', 'Classical.choice', 'Quot.sound', 'none'}
for n in names:
    assert set(found[n].split(', ')) <= allowed, (n, found[n])
with open(root + '/AXIOMS.md', 'w') as f:
    f.write('# Axioms of the property theorems\n\nGenerated by `tools/axioms.py` (`#print axioms`).\n')
    groups = {}
    for n in names:
        groups.setdefault(found[n], []).append(n)
    for g in sorted(groups):
        f.write('\n## %s\n\n' % g + '\n'.join('- ' + n for n in groups[g]) + '\n')
