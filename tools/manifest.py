#!/usr/bin/env python3
# Writes /verif/MANIFEST.json. One entry per property: (status, theorems, note)
import json, os
M = {}
def p(i, status, thms, note=""): M[i] = (status, thms, note)
exec(open(os.path.join(os.path.dirname(__file__), "claims.py")).read())
ids = [json.loads(l)["id"] for l in open("/verif/properties.jsonl")]
out = []
for i in ids:
    if i in M:
        s, t, n = M[i]
        out.append({"property": i, "status": s, "theorems": t, "note": n})
missing = [i for i in ids if i not in M]
json.dump({"claims": out}, open("/verif/MANIFEST.json", "w"), indent=1, ensure_ascii=False)
print(len(out), "claims; missing:", missing)
