#!/usr/bin/env python3
"""Generates RESULTS.md: every property with its theorems and their docstrings."""
import json, os, re, glob
root=os.path.join(os.path.dirname(os.path.abspath(__file__)),"..")
P=[json.loads(l) for l in open(root+"/properties.jsonl")]
M={c["property"]:c for c in json.load(open(root+"/MANIFEST.json"))["claims"]}
doc={}
for f in glob.glob(root+"/lean/Verif/Props/**/*.lean",recursive=True):
    src=open(f).read()
    rel=os.path.relpath(f,root+"/lean/Verif")
    for m in re.finditer(r"(?:/--((?:(?!-/).)*?)-/\s*)?theorem (C\d+_\w+)",src,re.S):
        doc[m.group(2)]=(" ".join((m.group(1) or "").split()),rel)
out=["# Results by property","","Generated by `tools/results.py` from `properties.jsonl`, `MANIFEST.json` and the theorem docstrings. `_violated` theorems prove that the code breaks the property; `_partial` theorems prove the part that holds.",""]
for p in P:
    c=M[p["id"]]
    out+=[f"## {p['id']} {p['title']} ({c['status']})","",p["statement"]+" *For "+p["quantifier"]+".*",""]
    for t in c["theorems"]:
        s=t.split(".")[-1]; d,rel=doc.get(s,("",""))
        out.append(f"* `{s}` ({rel})"+(": "+d if d else ""))
    if c["note"]: out+=["","Note: "+c["note"]]
    out.append("")
open(root+"/RESULTS.md","w").write("\n".join(out))
print(sum(1 for s in doc if not doc[s][0]),"without docstring")
