#!/usr/bin/env python3
"""Seeded bugs, several at a time. usage: mutate_group.py FILE.json [group ...]
FILE.json: {"group": [{"id","file","old","new","def","claim","props","thms"(optional)}]}. All edits of a group are made in one scratch copy; they are in
definitions so far apart that a theorem about one says nothing about the others. Failing proofs are cut as in mutate.py; an edit counts as caught if,
of each of its properties, a theorem (one of thms, if given) depends on a failed proof."""
import json,sys,shutil,subprocess,re,os,time
sys.path.insert(0,os.path.dirname(os.path.abspath(__file__)))
import mutate as M
def run(name,edits):
    shutil.rmtree(M.DST,ignore_errors=True); subprocess.run(["cp","-a",M.SRC.rstrip("/"),M.DST.rstrip("/")],check=True)
    for m in edits:
        p=M.DST+m["file"]; s=open(p).read()
        if s.count(m["old"])!=1: m["bad"]=s.count(m["old"]); continue
        open(p,"w").write(s.replace(m["old"],m["new"]))
    props=sorted({p for m in edits for p in m["props"]})
    T=M.modules(props); failed=[]; note=""
    for it in range(40):
        r=subprocess.run(["lake","build"]+T,cwd=M.DST,capture_output=True,text=True); o=r.stdout+r.stderr
        if r.returncode==0: break
        errs=sorted(set((f,int(l)) for f,l in re.findall(r"^error: (Verif/\S+?\.lean):(\d+):",o,re.M)))
        if not errs: note="build problem: "+o[-600:]; break
        byf={}
        for f,l in errs: byf.setdefault(f,[]).append(l)
        stop=False
        for f,ls in byf.items():
            lines=open(M.DST+f).read().split("\n"); ds=M.decls(lines); todo={}
            for l in ls:
                for k,n,a,b in ds:
                    if a<=l-1<b: todo[a]=(k,n,b)
            if not todo: note="no declaration at %s:%s"%(f,ls); stop=True
            for a in sorted(todo,reverse=True):
                k,n,b=todo[a]; body="\n".join(lines[a:b])
                t=M.cut(body+"\n")
                if t is None or M.CUT in body:
                    if k=="example": t=""
                    else: note="cannot cut %s:%d %s"%(f,a+1,n); stop=True; failed.append(f.replace("Verif/","").replace(".lean","")+":"+n); break
                if k in("def","abbrev") and "/Model/" in f: note="model error %s:%d"%(f,a+1)+o[-400:]; stop=True; break
                failed.append(f.replace("Verif/","").replace(".lean","")+":"+(n if n and k!="example" else "example"))
                lines[a:b]=t.split("\n")
            open(M.DST+f,"w").write("\n".join(lines))
        print(name,"round",it,time.strftime("%H:%M"),"failed so far",len(failed),flush=True)
        if stop: break
    hit=set()
    if not note:
        man=json.load(open(os.environ.get("MANIFEST","/verif/MANIFEST.json")))["claims"]
        names=[(c["property"],t) for c in man for t in c["theorems"] if M.MODS[t.replace("Amxml.","",1)] in T]
        open("/tmp/mut/ax.lean","w").write("".join("import %s\n"%t for t in T)+"".join("#print axioms %s\n"%t for _,t in names))
        r=subprocess.run(["lake","env","lean","/tmp/mut/ax.lean"],cwd=M.DST,capture_output=True,text=True)
        o=re.sub(r"\n\s+"," ",r.stdout+r.stderr)
        for pr,t in names:
            mm=re.search(r"'%s' depends on axioms: \[([^\]]*)\]"%re.escape(t),o)
            if mm and "sorryAx" in mm.group(1): hit.add((pr,t.replace("Amxml.","")))
    else:
        hit={("?",f.split(":")[1]) for f in failed}
    res=[]
    for m in edits:
        mine=sorted(t for p,t in hit if (p in m["props"] or p=="?") and (t in m["thms"] if m.get("thms") else (p!="?" or any(t.startswith(q+"_") for q in m["props"]))))
        ok=bool(mine) and "bad" not in m
        res.append({**m,"status":"bad-edit" if "bad" in m else "ok","failed":[f for f in failed if f.split(":")[1] in mine] or mine,"theorems_hit":mine,"verdict":"caught" if ok else "CHECK","group":name})
    return res,failed,note
if __name__=="__main__":
    gs=json.load(open(sys.argv[1])); out=sys.argv[1].replace(".json",".out.jsonl")
    for g in (sys.argv[2:] or list(gs)):
        res,failed,note=run(g,gs[g])
        with open(out,"a") as f:
            for r in res: f.write(json.dumps(r)+"\n")
        print(g,"note:",note); print(" all failed:",failed)
        for r in res: print(" ",r["id"],r["status"],r["verdict"],r["theorems_hit"],flush=True)
