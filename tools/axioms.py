"""Writes AXIOMS.md: the axioms every theorem of MANIFEST.json depends on. The project has to be built."""
import json, os, re, subprocess, tempfile
root = os.path.dirname(os.path.dirname(os.path.abspath(__file__)))
names = [name for claim in json.load(open(os.path.join(root, 'MANIFEST.json')))['claims'] for name in claim['theorems']]
with tempfile.NamedTemporaryFile('w', suffix = '.lean', delete = False) as file:
    file.write('import Verif\n' + ''.join(f'#print axioms {name}\n' for name in names))
out = subprocess.run(['lake', 'env', 'lean', file.name], cwd = os.path.join(root, 'lean'), capture_output = True, text = True).stdout
os.unlink(file.name)
found = {}
for match in re.finditer(r"'(\S+)' (?:depends on axioms: \[([^\]]*)\]|does not depend on any axioms)", out):
    found[match.group(1)] = tuple(sorted(re.split(r',\s*', match.group(2)))) if match.group(2) else ()
missing = [name for name in names if name not in found]
assert not missing, missing
allowed = {'propext', 'Classical.choice', 'Quot.sound'}
assert all(set(value) <= allowed for value in found.values())
groups = {}
for name in names:
    groups.setdefault(found[name], []).append(name)
lines = ['# Axioms', '', 'What `#print axioms` says about every theorem of `MANIFEST.json`.']
for key in sorted(groups, key = lambda key: (len(key), key)):
    lines += ['', f'## {", ".join(key) if key else "none"}', '', *(f'* `{name}`' for name in groups[key])]
with open(os.path.join(root, 'AXIOMS.md'), 'w') as file:
    file.write('\n'.join(lines) + '\n')
print(len(names), 'theorems', {key: len(value) for key, value in groups.items()})
