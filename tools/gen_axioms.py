#!/usr/bin/env python3
"""Writes AXIOMS.md: the axioms every theorem of MANIFEST.json depends on, as Lean reports them. Run after `lake build` in lean/."""
import json,os,re,subprocess,tempfile
R=os.path.dirname(os.path.dirname(os.path.abspath(__file__)))
names=[t for c in json.load(open(R+"/MANIFEST.json"))["claims"] for t in c["theorems"]]
with tempfile.NamedTemporaryFile("w",suffix=".lean",delete=False) as f:
    f.write("import Verif\n"+"\n".join(f"#print axioms {n}" for n in names))
out=subprocess.run(["lake","env","lean",f.name],cwd=R+"/lean",capture_output=True,text=True).stdout
os.unlink(f.name)
got={}
for m in re.finditer(r"'([^']+(?:'[^' ]*)*)' (?:does not depend on any axioms|depends on axioms: \[([^\]]*)\])",out):
    got[m.group(1)]=re.sub(r"\s+"," ",m.group(2) or "none")
with open(R+"/AXIOMS.md","w") as o:
    o.write("# Axioms of the property theorems\n\nMade by `tools/gen_axioms.py` from `#print axioms`.\n\n| Theorem | Axioms |\n|---|---|\n")
    for n in names: o.write(f"| {n} | {got[n]} |\n")
print(len(names),"theorems,",{v for v in got.values()})
