#!/usr/bin/env python3
# Regenerates MANIFEST.json: theorem names are taken from the sources by their C-number prefix.
import re,json,glob
NOTES={
 'C04':("partial","interface methods, fields of derived struct types, alias receivers and variables after a parenthesised type deviate (proved counterexamples); C04_exact says for every entity exactly when the two symbols are equal"),
 'C22':("partial","a spec whose declared type the visitor does not handle (e.g. one in parentheses) leaves its scope open for the later specs of its declaration (proved counterexample); C22_var_names_exact says what happens in all cases, and when the property holds"),
 'C24':("partial","embedded fields of struct types written in var declarations are recorded where the field begins: C24_var_struct_exact says when they are found; counterexample *E"),
}
exec(open('/verif/tools/notes.py').read()) if glob.glob('/verif/tools/notes.py') else None
ids=[json.loads(l)['id'] for l in open('/verif/properties.jsonl')]
th={}
for f in sorted(glob.glob('/verif/lean/Verif/Props/*.lean')):
    for m in re.finditer(r'^theorem (?:_root_\.Verif\.)?(C(\d+)_\w+)',open(f).read(),re.M):
        th.setdefault('C'+m.group(2),[]).append('Verif.'+m.group(1))
out=[]
for i in ids:
    ts=th.get(i,[])
    if i in NOTES: st,n=NOTES[i]
    elif not ts: st,n='partial','not modelled yet'
    else: st,n='proved',''
    out.append({'property':i,'status':st,'theorems':ts,'note':n})
json.dump({'claims':out},open('/verif/MANIFEST.json','w'),indent=1,ensure_ascii=False)
print({s:sum(1 for c in out if c['status']==s) for s in ('proved','partial','not_applicable')}, [c['property'] for c in out if not c['theorems']])
