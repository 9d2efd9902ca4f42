#!/usr/bin/env python3
"""Regenerate MANIFEST.json from the cNN_ theorems under lean/Verif and tools/notes.json."""
import re, json, glob, os
root = os.path.dirname(os.path.dirname(os.path.abspath(__file__)))
notes = json.load(open(root + '/tools/notes.json'))
thms = {}
for f in sorted(glob.glob(root + '/lean/Verif/**/*.lean', recursive=True)):
    ns = []
    for line in open(f):
        m = re.match(r'namespace\s+(\S+)', line)
        if m: ns.append(m.group(1))
        m = re.match(r'end\s+(\S+)', line)
        if m and ns and ns[-1] == m.group(1): ns.pop()
        m = re.match(r'(?:@\[[^\]]*\]\s*)?theorem\s+(c(\d\d+)_\S+)', line)
        if m:
            thms.setdefault('C' + m.group(2), []).append('.'.join(ns + [m.group(1)]))
claims = []
for l in open(root + '/properties.jsonl'):
    p = json.loads(l)['id']
    n = notes.get(p, {})
    t = thms.get(p, [])
    if 'status' in n: st = n['status']
    elif not t: continue
    elif any(x.endswith('_partial') for x in t): st = 'partial'
    else: st = 'proved'
    claims.append({'property': p, 'status': st, 'theorems': t, 'note': n.get('note', '')})
json.dump({'claims': claims}, open(root + '/MANIFEST.json', 'w'), indent=1)
mods = sorted(os.path.relpath(f, root + '/lean')[:-5].replace('/', '.')
  for f in glob.glob(root + '/lean/Verif/**/*.lean', recursive=True))
open(root + '/lean/Verif.lean', 'w').write(''.join('import %s\n' % m for m in mods))
print(len(claims), 'claims', sum(len(c['theorems']) for c in claims), 'theorems')
