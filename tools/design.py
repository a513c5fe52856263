"""Puts DESIGN.md together, see its head."""
import json, os
root = os.path.dirname(os.path.dirname(os.path.abspath(__file__)))
def path(*parts): return os.path.join(root, *parts)
areas = json.load(open(path('tools', 'areas.json')))
have = {name for name in os.listdir(path('lean', 'Verif')) if os.path.isdir(path('lean', 'Verif', name))}
assert have == {a[0] for a in areas}, have ^ {a[0] for a in areas}
claims = json.load(open(path('MANIFEST.json')))['claims']
titles = {}
for line in open(path('properties.jsonl')):
    value = json.loads(line)
    titles[value['id']] = value['title']
by_area = {}
for claim in claims:
    for name in claim['theorems']:
        ids = by_area.setdefault(name.split('.')[1], [])
        if claim['property'] not in ids:
            ids.append(claim['property'])
out = [open(path('tools', 'design_head.md')).read().rstrip(), '', '## What is modelled', '',
    '| Area (`lean/Verif/...`) | Code | Not modelled of it | Properties |', '|---|---|---|---|']
for name, code, rest in areas:
    out.append(f'| {name} | {code} | {rest} | {", ".join(by_area.get(name, ["-"]))} |')
out += ['', '## Properties', '',
    f'{len(claims)} properties, {sum(c["status"] == "proved" for c in claims)} proved as stated, '
    f'{sum(any(n.endswith("_violated") for n in c["theorems"]) for c in claims)} shown not to hold for this code (`_violated`).',
    '', '| Id | Property | Status | What is proved |', '|---|---|---|---|']
for claim in claims:
    status = claim['status']
    if any(name.endswith('_violated') for name in claim['theorems']):
        status += ', violated by the code'
    out.append(f'| {claim["property"]} | {titles[claim["property"]]} | {status} | {claim["note"].replace("|", "/")} |')
with open(path('DESIGN.md'), 'w') as file:
    file.write('\n'.join(out) + '\n')
