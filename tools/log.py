#!/usr/bin/env python3
"""Appends results of mutate.py to seeded/LOG.jsonl. usage: log.py OUT.jsonl [ID=theorem,theorem ...]  (theorems tightened)"""
import json,sys
t=dict(a.split("=",1) for a in sys.argv[2:])
f=open("/verif/seeded/LOG.jsonl","a")
for l in open(sys.argv[1]):
    d=json.loads(l)
    f.write(json.dumps({"definition":d["def"],"file":"lean/"+d["file"],"edit":{"old":d["old"],"new":d["new"]},"claim_broken":d["claim"],"properties":d["props"],
      "theorems_failed":d.get("failed",[]),"claimed_theorems_depending_on_a_failed_proof":d.get("theorems_hit",[]),
      "theorems_tightened":[x for x in t.get(d["id"],"").split(",") if x]},ensure_ascii=False)+"\n")
