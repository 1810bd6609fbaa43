#!/usr/bin/env python3
"""writes AXIOMS.md: the axioms every theorem of the manifest depends on"""
import json,re,subprocess
m=json.load(open("/verif/MANIFEST.json"))
t=sorted({x for c in m["claims"] for x in c["theorems"]})
open("/tmp/Ax.lean","w").write("import Verif\n"+"".join("#print axioms %s\n"%x for x in t))
o=subprocess.run("lake env lean /tmp/Ax.lean",shell=True,cwd="/verif/lean",capture_output=True,text=True).stdout
d={}
for g in re.finditer(r"'(\S+)' (does not depend on any axioms|depends on axioms: \[([^\]]*)\])",o):
    d.setdefault(", ".join(sorted(x.strip() for x in (g.group(3) or "").split(",") if x.strip())) or "none",[]).append(g.group(1))
with open("/verif/AXIOMS.md","w") as f:
    f.write("# Axioms of the theorems of the manifest (generated by tools/axioms.py)\n")
    for k in sorted(d):
        f.write("\n## %s (%d)\n"%(k,len(d[k]))+" ".join(d[k])+"\n")
print({k:len(v) for k,v in d.items()}, len(t))
