"""Writes AXIOMS.md: the axioms each theorem of MANIFEST.json depends on, as Lean prints them."""
import json,subprocess,re
ns=[]
for c in json.load(open('/verif/MANIFEST.json'))['claims']:
    for t in c['theorems']:
        if t not in ns: ns.append(t)
open('/tmp/ax.lean','w').write("import Verif\n"+"".join(f"#print axioms {n}\n" for n in ns))
out=subprocess.run(['lake','env','lean','/tmp/ax.lean'],cwd='/verif/lean',capture_output=True,text=True).stdout
out=re.sub(r'\n\s+',' ',out)
g={}
for n in ns:
    m=re.search(r"'"+re.escape(n)+r"' (does not depend on any axioms|depends on axioms: \[([^\]]*)\])",out)
    assert m,n
    k=", ".join(sorted(x.strip() for x in m.group(2).split(','))) if m.group(2) else "no axioms"
    g.setdefault(k,[]).append(n)
allowed={'propext','Classical.choice','Quot.sound'}
o=["# Axioms","","Generated by `tools/axioms.py`: what `#print axioms` says of each theorem of MANIFEST.json.",""]
for k in sorted(g):
    assert k=="no axioms" or set(k.split(', '))<=allowed,k
    o.append(f"## {k} ({len(g[k])} theorems)"); o.append(""); o.append(", ".join("`"+x+"`" for x in g[k])+"."); o.append("")
open('/verif/AXIOMS.md','w').write("\n".join(o))
print({k:len(v) for k,v in g.items()})
