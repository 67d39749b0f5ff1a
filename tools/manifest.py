#!/usr/bin/env python3
"""Regenerate MANIFEST.json, from the theorem names in lean/Verif/Props and tools/notes.json, and Verif.lean."""
import json, re, glob, os
root = os.path.dirname(os.path.dirname(os.path.abspath(__file__)))
notes = json.load(open(root + '/tools/notes.json')) if os.path.exists(root + '/tools/notes.json') else {}
thms = {}
for f in sorted(glob.glob(root + '/lean/Verif/Props/*.lean')):
    stack = []
    for line in open(f):
        if m := re.match(r'namespace (\S+)', line):
            stack.append(m.group(1))
        elif (m := re.match(r'end (\S+)', line)) and stack and stack[-1] == m.group(1):
            stack.pop()
        elif m := re.match(r'(?:@\[[^\]]*\] )?theorem (C(\d+)_\w+)', line):
            thms.setdefault('C' + m.group(2), []).append('.'.join(stack + [m.group(1)]))
claims = []
for l in open(root + '/properties.jsonl'):
    d = json.loads(l)
    n = notes.get(d['id'], {})
    if isinstance(n, str):
        n = {'note': n}
    t = thms.get(d['id'], [])
    status = n.get('status') or ('proved' if t and not any(x.endswith('_partial') for x in t) else 'partial')
    if not t and 'status' not in n:
        n = dict(n, note='not proved yet')
    claims.append(dict(property=d['id'], status=status, theorems=t, note=n.get('note', '')))
json.dump({'claims': claims}, open(root + '/MANIFEST.json', 'w'), indent=1, ensure_ascii=False)
mods = []
for f in sorted(glob.glob(root + '/lean/Verif/**/*.lean', recursive=True)):
    mods.append(os.path.relpath(f, root + '/lean')[:-5].replace('/', '.'))
open(root + '/lean/Verif.lean', 'w').write(''.join('import %s\n' % m for m in mods))
print({s: sum(1 for c in claims if c['status'] == s) for s in {c['status'] for c in claims}},
      'without theorems:', [c['property'] for c in claims if not c['theorems']])
