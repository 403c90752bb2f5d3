"""Writes checks/axioms.txt: the axioms every theorem of MANIFEST.json depends on, as printed by Lean. Run after `lake build`."""
import collections, json, os, re, subprocess, tempfile

root = os.path.dirname(os.path.dirname(os.path.abspath(__file__)))
names = list(dict.fromkeys(t for c in json.load(open(root + '/MANIFEST.json'))['claims'] for t in c['theorems']))
with tempfile.NamedTemporaryFile('w', suffix='.lean', delete=False) as f:
    f.write('import Verif\n' + ''.join(f'#print axioms {t}\n' for t in names))
out = subprocess.run(['lake', 'env', 'lean', f.name], cwd=root + '/lean', capture_output=True, text=True).stdout
os.unlink(f.name)
found = {}
for m in re.finditer(r"'([^']+)' (?:depends on axioms: \[([^\]]*)\]|does not depend on any axioms)", out):
    found[m.group(1)] = ', '.join((m.group(2) or '').replace(',', ' ').split()) or 'none'
groups = collections.defaultdict(list)
for t in names:
    groups[found.get(t, 'MISSING')].append(t)
with open(root + '/checks/axioms.txt', 'w') as f:
    for k in sorted(groups, key=lambda k: -len(groups[k])):
        f.write(f'# {len(groups[k])} theorems: {k}\n' + ''.join(t + '\n' for t in sorted(groups[k])) + '\n')
for k in groups:
    print(len(groups[k]), k)
