#!/usr/bin/env python3
"""Regenerates MANIFEST.json from properties.jsonl and the theorem names in lean/Verif/Props."""
import json, os, re, glob
root=os.path.join(os.path.dirname(os.path.abspath(__file__)),"..")
ids=[json.loads(l)["id"] for l in open(root+"/properties.jsonl")]
thms={}
docs={}
for f in sorted(glob.glob(root+"/lean/Verif/Props/**/*.lean",recursive=True)):
    src=open(f).read()
    for m in re.finditer(r"/--\s*((?:(?!-/).)*?)\s*-/\s*(?:private |protected )?theorem (C\d+_\w+)",src,re.S):
        docs[m.group(2)]=re.sub(r"\s+"," ",re.sub(r"^C\d+\s*(\([^)]*\))?\s*:\s*","",m.group(1)))
    ns=[]
    for line in src.split("\n"):
        m=re.match(r"namespace (\S+)",line)
        if m: ns.append(m.group(1))
        m=re.match(r"end (\S+)",line)
        if m and ns and ns[-1]==m.group(1): ns.pop()
        m=re.match(r"(?:private |protected )?theorem (C\d+)_(\w+)",line)
        if m: thms.setdefault(m.group(1),[]).append(".".join(ns+[m.group(1)+"_"+m.group(2)]))
notes=json.load(open(root+"/tools/notes.json")) if os.path.exists(root+"/tools/notes.json") else {}
claims=[]
for i in ids:
    t=thms.get(i,[])
    n=notes.get(i,{})
    st=n.get("status")
    if not st:
        if not t: st="partial"
        elif any(x.endswith("_partial") or "_violated" in x for x in t): st="partial"
        else: st="proved"
    note=n.get("note","")
    if st=="partial" and not note:
        sh=[x.split(".")[-1] for x in t]
        bad=[docs.get(x,x) for x in sh if "_violated" in x]
        par=[docs.get(x,x) for x in sh if x.endswith("_partial")]
        if bad: note="The code does not have the full property; proved negation: "+" | ".join(bad)
        if par: note+=(" " if note else "")+("Proved part: " if bad else "Only this part is proved: ")+" | ".join(par)
    if not t and not note: note="not yet proved"
    claims.append(dict(property=i,status=st,theorems=t,note=note))
json.dump({"claims":claims},open(root+"/MANIFEST.json","w"),indent=1,ensure_ascii=False)
unk=set(thms)-set(ids)
print("claims",len(claims),"proved",sum(c["status"]=="proved" for c in claims),"with thms",sum(bool(c["theorems"]) for c in claims),"theorems",sum(len(c["theorems"]) for c in claims),"unknown",unk)
