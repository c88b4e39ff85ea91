#!/usr/bin/env python3
"""DESIGN.md = design_head.md + a table of the properties with the method of proof."""
import json,os
D=os.path.join(os.path.dirname(os.path.abspath(__file__)),"..")
M={}
def m(ids,how):
    for i in ids.split(): M[i]=how
exec(open(os.path.join(D,"tools/design_methods.py")).read())
props=[json.loads(l) for l in open(os.path.join(D,"properties.jsonl"))]
claims={c["property"]:c for c in json.load(open(os.path.join(D,"MANIFEST.json")))["claims"]}
out=open(os.path.join(D,"tools/design_head.md")).read()
miss=[]
for p in sorted(props,key=lambda p:int(p["id"][1:])):
    c=claims.get(p["id"]); 
    if p["id"] not in M: miss.append(p["id"])
    out+=f"### {p['id']} — {p['title']}\n\n{p['statement']}\n\n* How: {M.get(p['id'],'')}\n"
    if c:
        out+=f"* {c['status']}: "+", ".join("`"+t.replace('Amxml.','',1)+"`" for t in c["theorems"])+"\n"
        if c["note"]: out+=f"* Note: {c['note']}\n"
    out+="\n"
open(os.path.join(D,"DESIGN.md"),"w").write(out)
print("no method:",miss)
