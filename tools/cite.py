#!/usr/bin/env python3
"""Checks and repairs citations of the form `name` (src/.../file.rs:A-B) in the Lean sources:
the range is recomputed from the definition of `fn name` / `const name` in the cited file."""
import re,sys,glob
REPO='/repo/'
cache={}
def lines(f):
    if f not in cache: cache[f]=open(REPO+f).read().split('\n')
    return cache[f]
def spans(f,name):
    out=[];L=lines(f)
    for i,l in enumerate(L):
        if re.match(r'\s*(pub )?(fn|const|static|enum|struct|macro_rules!) *%s\b'%re.escape(name),l):
            d=0;st=False
            for j in range(i,len(L)):
                s=re.sub(r"'(\\.|[^'\\])'|\"(\\.|[^\"\\])*\"",'',L[j].split('//')[0])
                d+=s.count('{')-s.count('}')
                if '{' in s: st=True
                if st and d==0: break
                if not st and s.rstrip().endswith(';') : break
            out.append((i+1,j+1))
    return out
fix='--fix' in sys.argv
for fn in sorted(glob.glob('/verif/lean/Verif/**/*.lean',recursive=True)):
    t=open(fn).read();o=t
    def r(m):
        name,f,a,b=m.group(1),m.group(2),int(m.group(3)),int(m.group(4) or m.group(3))
        try: sp=spans(f,name)
        except FileNotFoundError: print(fn,'no file',f);return m.group(0)
        if not sp: print(fn.split('/')[-1],'no def',name,f,a,b);return m.group(0)
        if (a,b) in sp: return m.group(0)
        if any(s[0]<=a and b<=s[1] and b-a<(s[1]-s[0])*0.7 for s in sp): return m.group(0)  # part of the function
        best=min(sp,key=lambda s:abs(s[0]-a)+abs(s[1]-b))
        print(fn.split('/')[-1],name,(a,b),'->',best)
        return m.group(0) if not fix else '`%s` (%s:%d-%d'%(name,f,best[0],best[1])
    t=re.sub(r'`([A-Za-z_0-9]+)` \((src/[a-z_/0-9]+\.rs):(\d+)(?:-(\d+))?',r,t)
    if fix and t!=o: open(fn,'w').write(t)
