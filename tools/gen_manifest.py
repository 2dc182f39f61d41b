#!/usr/bin/env python3
"""Regenerate MANIFEST.json from the theorem names Cnn_* in lean/Verif/Props and tools/notes.json."""
import re, json, glob, collections
root = __file__.rsplit('/', 2)[0]
thms = collections.OrderedDict()
for f in sorted(glob.glob(root + '/lean/Verif/Props/*.lean')):
    src = open(f).read()
    stack = []
    for line in src.split('\n'):
        m = re.match(r'namespace\s+(\S+)', line)
        if m:
            stack.append(m.group(1))
        m = re.match(r'end\s+(\S+)', line)
        if m and stack and stack[-1] == m.group(1):
            stack.pop()
        m = re.match(r'(?:noncomputable )?theorem\s+(C\d+)(_\S+)', line)
        if m:
            thms.setdefault(m.group(1), []).append('.'.join(stack + [m.group(1) + m.group(2)]))
notes = json.load(open(root + '/tools/notes.json'))
claims = []
for line in open(root + '/properties.jsonl'):
    p = json.loads(line)
    i = p['id']
    n = notes.get(i, {})
    ts = thms.get(i, [])
    status = n.get('status', 'proved')
    if not ts and status == 'proved':
        status = 'partial'; n = {'note': 'not yet proved'}
    claims.append({'property': i, 'status': status, 'theorems': ts, 'note': n.get('note', '')})
json.dump({'claims': claims}, open(root + '/MANIFEST.json', 'w'), indent=1)
print(sum(len(c['theorems']) for c in claims), 'theorems;', [c['property'] for c in claims if not c['theorems']])
