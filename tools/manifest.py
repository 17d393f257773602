#!/usr/bin/env python3
"""Regenerates MANIFEST.json and lean/Verif.lean from the sources:
theorems named Cnn_... in lean/Verif/Props belong to property Cnn."""
import json, re, os, sys
root = os.path.dirname(os.path.dirname(os.path.abspath(__file__)))
notes = json.load(open(os.path.join(root, 'tools', 'notes.json')))
props = [json.loads(l)['id'] for l in open(os.path.join(root, 'properties.jsonl'))]
thms = {}
mods = []
for d, _, fs in sorted(os.walk(os.path.join(root, 'lean', 'Verif'))):
    for f in sorted(fs):
        if not f.endswith('.lean'): continue
        p = os.path.join(d, f)
        mods.append(os.path.relpath(p, os.path.join(root, 'lean'))[:-5].replace('/', '.'))
        if os.sep + 'Props' in p:
            for m in re.finditer(r'^theorem (C\d\d\d?)_(\w+)', open(p).read(), re.M):
                thms.setdefault(m[1], []).append('Btrfscue.%s_%s' % (m[1], m[2]))
claims = []
for i in props:
    t = thms.get(i, [])
    n = notes.get(i, {})
    if n.get('status') == 'not_applicable':
        st = 'not_applicable'
    else:
        if not t: continue
        st = n.get('status') or ('partial' if any(x.endswith('_partial') for x in t) else 'proved')
    claims.append({'property': i, 'status': st, 'theorems': t, 'note': n.get('note', '')})
json.dump({'claims': claims}, open(os.path.join(root, 'MANIFEST.json'), 'w'), indent=1)
open(os.path.join(root, 'MANIFEST.json'), 'a').write('\n')
open(os.path.join(root, 'lean', 'Verif.lean'), 'w').write(''.join('import %s\n' % m for m in sorted(mods)))
print(len(claims), 'claims;', 'missing:', [i for i in props if i not in thms and notes.get(i,{}).get('status')!='not_applicable'])
