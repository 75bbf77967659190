#!/usr/bin/env python3
# Rewrites the last section of DESIGN.md: the axioms of every theorem named in MANIFEST.json.
import json,re,subprocess
m=json.load(open('/verif/MANIFEST.json'))
names=[t for c in m['claims'] for t in c['theorems']]
open('/tmp/axioms_query.lean','w').write('import Verif\n'+''.join(f'#print axioms {n}\n' for n in names))
o=subprocess.run(['lake','env','lean','/tmp/axioms_query.lean'],cwd='/verif/lean',capture_output=True,text=True).stdout
ax={}
for l in re.finditer(r"'([^']+)' (?:depends on axioms: \[([^\]]*)\]|does not depend on any axioms)",o):
    ax[l.group(1)]=' '.join((l.group(2) or '').replace(',',' ').split()) or 'none'
s=open('/verif/DESIGN.md').read()
k='### Axioms per theorem\n'
i=s.index(k)+len(k)
g={}
for n in names: g.setdefault(ax[n],[]).append(n.replace('Verif.',''))
out='\n'
for a in sorted(g): out+='* **'+a.replace(' ',', ')+'**: '+', '.join(g[a])+'\n'
open('/verif/DESIGN.md','w').write(s[:i]+out)
