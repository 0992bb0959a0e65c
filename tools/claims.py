#!/usr/bin/env python3
"""Writes MANIFEST.json and lean/Verif/Audit.lean from the table below."""
import json, os
R=os.path.dirname(os.path.dirname(os.path.abspath(__file__)))
C=[] # (id, status, [theorems], note)
def c(i,st,th,note): C.append((i,st,th,note))
exec(open(os.path.join(R,'tools','claims_table.py')).read())
json.dump({"claims":[{"property":i,"status":s,"theorems":["PyBN."+t for t in th],"note":n} for i,s,th,n in C]},
  open(os.path.join(R,'MANIFEST.json'),'w'),indent=1,ensure_ascii=False)
mods=[l for l in open(os.path.join(R,'lean/Verif.lean')).read().split('\n') if l.startswith('import') and 'Audit' not in l]
with open(os.path.join(R,'lean/Verif/Audit.lean'),'w') as f:
    f.write('\n'.join(mods)+'\n\n/-! Prints the axioms each property theorem rests on. -/\n\n')
    for i,s,th,n in C:
        for t in th: f.write('#print axioms PyBN.%s\n'%t)
