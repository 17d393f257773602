#!/usr/bin/env python3
"""addprop.py FILE: append property objects (JSON lines with extra fields design, note) to
properties.jsonl, the table of DESIGN.md section 4 and notes.json."""
import json,sys,re
P='/verif/'
notes=json.load(open(P+'tools/notes.json'))
d=open(P+'DESIGN.md').read()
for l in open(sys.argv[1]):
    o=json.loads(l)
    design=o.pop('design'); note=o.pop('note')
    open(P+'properties.jsonl','a').write(json.dumps(o)+'\n')
    notes[o['id']]={"note":note}
    rows=[m for m in re.finditer(r'^\| C\d\d.*\|$',d,re.M)]
    e=rows[-1].end()
    d=d[:e]+'\n| %s | %s | %s |'%(o['id'],design[0],design[1])+d[e:]
open(P+'DESIGN.md','w').write(d)
json.dump(notes,open(P+'tools/notes.json','w'),indent=1)
