"""Regenerates MANIFEST.json from the theorem names in lean/Verif/*/Props*.lean and tools/notes.json."""
import glob, json, os, re
root = os.path.dirname(os.path.dirname(os.path.abspath(__file__)))
notes = json.load(open(os.path.join(root, 'tools', 'notes.json')))
theorems = {}
for path in sorted(glob.glob(os.path.join(root, 'lean', 'Verif', '**', 'Props*.lean'), recursive = True)):
    stack = []
    for line in open(path):
        match = re.match(r'namespace\s+(\S+)', line)
        if match:
            stack.append(match.group(1))
            continue
        match = re.match(r'end\s+(\S+)', line)
        if match and stack and stack[-1] == match.group(1):
            stack.pop()
            continue
        match = re.match(r'(?:protected |private )?theorem\s+(C\d\d+)_(\S+)', line)
        if match:
            theorems.setdefault(match.group(1), []).append('.'.join([*stack, f'{match.group(1)}_{match.group(2)}']))
claims = []
for line in open(os.path.join(root, 'properties.jsonl')):
    key = json.loads(line)['id']
    names = theorems.get(key, [])
    note = notes.get(key, {})
    if not names and not note:
        continue
    if 'status' in note:
        status = note['status']
    elif any(name.endswith(('_partial', '_violated')) for name in names):
        status = 'partial'
    else:
        status = 'proved'
    claims.append({'property': key, 'status': status, 'theorems': names, 'note': note.get('note', '')})
with open(os.path.join(root, 'MANIFEST.json'), 'w') as file:
    file.write('{"claims": [\n' + ',\n'.join(json.dumps(claim) for claim in claims) + '\n]}\n')
print(len(claims), 'claims,', sum(c['status'] == 'proved' for c in claims), 'proved')
