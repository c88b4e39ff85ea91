#!/usr/bin/env python3
"""Seeded-bug experiments. usage: mutate.py FILE.json [start]
FILE.json: list of {"id","file","old","new","def","claim"(text),"props":[...]}; applies each edit to a scratch copy of
/verif/lean in /tmp/mut, rebuilds, cuts the proofs that fail (in the scratch copy only) until everything else builds, and reports
which theorems failed and which theorems of the manifest depend on a failed one."""
import json,re,subprocess,sys,os,shutil
SRC=os.environ.get("SRC","/verif/lean/"); DST="/tmp/mut/lean/"
START=re.compile(r"^(theorem|def|example|instance|/--|/-!|namespace|end\b|section|open\b|@\[|private|protected|set_option|structure|inductive|abbrev|variable|macro|local|attribute|noncomputable|mutual|lemma|include|omit|class|notation|termination_by)")
DECL=re.compile(r"^(?:@\[[^\]]*\]\s*)?(?:private |protected |noncomputable )*(theorem|def|example|instance|abbrev)\b\s*([^\s:({\[]*)")
CUT="so"+"rry"
TARGETS=os.environ.get("TARGETS","Verif").split()  # modules to build and import
FAST=os.environ.get("FAST")  # build only the modules with the theorems of the properties in question
MODS={}
def modules(props):
    if not MODS:
        import glob
        for f in glob.glob(SRC.rstrip("/")+"/Verif/**/*.lean",recursive=True):
            for n in re.findall(r"^theorem (\S+)",open(f).read(),re.M): MODS.setdefault(n,f[len(SRC.rstrip("/"))+1:-5].replace("/","."))
    man=json.load(open(os.environ.get("MANIFEST","/verif/MANIFEST.json")))["claims"]
    return sorted({MODS[t.replace("Amxml.","",1)] for c in man if c["property"] in props for t in c["theorems"]})
def decls(lines):
    out=[]; cur=None
    for i,l in enumerate(lines):
        if START.match(l):
            if cur: out.append((*cur,i)); cur=None
            m=DECL.match(l)
            if m: cur=(m.group(1),m.group(2),i)
    if cur: out.append((*cur,len(lines)))
    return out
def cut(text):
    depth=0;i=0
    while i<len(text):
        c=text[i]
        if text.startswith("--",i):
            j=text.find("\n",i); i=len(text) if j<0 else j; continue
        if c=='"':
            j=i+1
            while j<len(text) and text[j]!='"': j+=2 if text[j]=="\\" else 1
            i=j+1; continue
        mc=re.match(r"'(\\.[^']*|[^'\\])'",text[i:i+12])
        if mc: i+=mc.end(); continue
        if c in "([{⟨": depth+=1
        elif c in ")]}⟩": depth-=1
        elif depth==0 and text.startswith(":=",i):
            line=text[text.rfind("\n",0,i)+1:i]
            if not re.search(r"\b(let|have)\b[^;]*$",line): return text[:i]+":= "+CUT+"\n\n"
        elif depth==0 and text.startswith("\n  | ",i): return text[:i]+" := "+CUT+"\n\n"
        i+=1
    return None
def run(m):
    shutil.rmtree(DST,ignore_errors=True); subprocess.run(["cp","-a",SRC.rstrip("/"),DST.rstrip("/")],check=True)
    p=DST+m["file"]; s=open(p).read()
    if s.count(m["old"])!=1: return {"status":"bad-edit","count":s.count(m["old"])}
    open(p,"w").write(s.replace(m["old"],m["new"]))
    failed=[]; T=modules(m["props"]) if FAST else TARGETS
    for it in range(25):
        r=subprocess.run(["lake","build"]+T,cwd=DST,capture_output=True,text=True)
        o=r.stdout+r.stderr
        if r.returncode==0: break
        errs=sorted(set((f,int(l)) for f,l in re.findall(r"^error: (Verif/\S+?\.lean):(\d+):",o,re.M)))
        if not errs: return {"status":"build-problem","out":o[-1500:]}
        byf={}
        for f,l in errs: byf.setdefault(f,[]).append(l)
        progress=False
        for f,ls in byf.items():
            lines=open(DST+f).read().split("\n"); ds=decls(lines); todo={}
            for l in ls:
                for k,n,a,b in ds:
                    if a<=l-1<b: todo[a]=(k,n,b)
            for a in sorted(todo,reverse=True):
                k,n,b=todo[a]
                t=cut("\n".join(lines[a:b])+"\n")
                if t is None or CUT in "\n".join(lines[a:b]):
                    if k=="example": t=""
                    else: return {"status":"cannot-cut","at":f+":"+str(a+1),"name":n,"failed":failed,"out":o[-1500:]}
                if k in("def","abbrev") and "/Model/" in f: return {"status":"model-error","at":f+":"+str(a+1),"out":o[-1500:]}
                failed.append((f.replace("Verif/","").replace(".lean","")+":"+(n if n and k!="example" else "example")))
                lines[a:b]=t.split("\n"); progress=True
            open(DST+f,"w").write("\n".join(lines))
        if not progress: return {"status":"no-progress","out":o[-1500:]}
    else: return {"status":"too-many-rounds","failed":failed}
    man=json.load(open(os.environ.get("MANIFEST","/verif/MANIFEST.json")))["claims"]
    names=[(c["property"],t) for c in man for t in c["theorems"] if not FAST or MODS[t.replace("Amxml.","",1)] in T]
    open("/tmp/mut/ax.lean","w").write("".join("import %s\n"%t for t in T)+"".join("#print axioms %s\n"%t for _,t in names))
    r=subprocess.run(["lake","env","lean","/tmp/mut/ax.lean"],cwd=DST,capture_output=True,text=True)
    o=re.sub(r"\n\s+"," ",r.stdout+r.stderr)
    hit=[]
    for pr,t in names:
        mm=re.search(r"'%s' depends on axioms: \[([^\]]*)\]"%re.escape(t),o)
        if mm and "sorryAx" in mm.group(1): hit.append((pr,t))
    return {"status":"ok","failed":failed,"claims_hit":sorted(set(p for p,_ in hit)),"theorems_hit":[t.replace("Amxml.","") for _,t in hit]}
if __name__=="__main__":
    ms=json.load(open(sys.argv[1])); st=int(sys.argv[2]) if len(sys.argv)>2 else 0
    out=sys.argv[1].replace(".json",".out.jsonl")
    for m in ms[st:]:
        r=run(m); r["id"]=m["id"]; r["props"]=m["props"]
        r["verdict"]="caught" if set(m["props"])<=set(r.get("claims_hit",[])) else "CHECK"
        open(out,"a").write(json.dumps({**m,**r})+"\n")
        print(m["id"],r["status"],r["verdict"],"wanted",m["props"],"hit",r.get("claims_hit"),"failed",len(r.get("failed",[])),flush=True)
