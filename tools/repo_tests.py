#!/usr/bin/env python3
"""Runs the test suite of /repo (tests written with subtest_xpath / subtest_eval_xpath) against the model, as a check of the model's
fidelity (not as a proof). Writes a Lean script to /tmp/repo_tests.lean; run it in /verif/lean with `lake env lean /tmp/repo_tests.lean`."""
import re,glob,sys
def lit(s,i):
    """a Rust string literal at s[i:]; returns (value, end)"""
    m=re.match(r'r(#*)"',s[i:])
    if m:
        e=s.index('"'+m.group(1),i+m.end()); return s[i+m.end():e],e+1+len(m.group(1))
    assert s[i]=='"'
    out='';j=i+1
    while s[j]!='"':
        if s[j]=='\\':
            c=s[j+1]
            if c=='u':
                e=s.index('}',j); out+=chr(int(s[j+3:e],16)); j=e+1; continue
            if c=='\n':
                j+=2
                while s[j].isspace(): j+=1
                continue
            out+={'n':'\n','t':'\t','r':'\r','"':'"','\\':'\\',"'":"'",'0':'\0'}[c]; j+=2
        else: out+=s[j]; j+=1
    return out,j+1
def nocomment(s):
    # drops // comments outside of strings
    out='';i=0
    while i<len(s):
        m=re.match(r'r#*"|"',s[i:])
        if m and not (i and (s[i-1].isalnum())):
            v,e=lit(s,i); out+=s[i:e]; i=e; continue
        if s.startswith("'\"'",i): out+="'\"'"; i+=3; continue
        if s.startswith('//',i):
            j=s.find('\n',i); i=len(s) if j<0 else j; continue
        out+=s[i]; i+=1
    return out
def lean(s):
    return '"'+''.join({'"':'\\"','\\':'\\\\','\n':'\\n','\t':'\\t','\r':'\\r'}.get(c,c if ord(c)>=32 else '\\x%02x'%ord(c)) for c in s)+'"'
cases=[]
for f in sorted(glob.glob('/repo/src/*.rs')+glob.glob('/repo/src/xpath_impl/*.rs')):
    t=open(f).read()
    k=t.find('mod test {')
    if k<0: continue
    t=nocomment(t[k:]); xml={}
    for m in re.finditer(r'let (\w+) = (compress_spaces\(&?)?(?=r#*"|")|subtest_(eval_)?xpath\(\s*',t):
        if m.group(1):
            v,e=lit(t,m.end())
            if m.group(2): v=''.join(l.lstrip() for l in v.split('\n'))
            xml[m.group(1)]=v; continue
        idv,e=lit(t,m.end())
        mm=re.compile(r'\s*,\s*&?(\w+)\s*,\s*(true|false)?,?\s*&\[').match(t,e)
        assert mm,t[e:e+80]
        mode='eval' if m.group(3) else ('val' if mm.group(2)=='true' else 'img')
        i=mm.end()
        while True:
            p=re.compile(r'\s*,?\s*(\(|\])\s*').match(t,i)
            if p.group(1)==']': break
            q,e=lit(t,p.end())
            p=re.compile(r'\s*,\s*').match(t,e)
            g,e=lit(t,p.end())
            i=re.compile(r'\s*,?\s*\)').match(t,e).end()
            cases.append((f.split('/')[-1]+':'+idv,xml[mm.group(1)],mode,q,g))
o=open('/tmp/repo_tests.lean','w')
o.write('''import Verif.Model.Display
import Verif.Model.Eval
open Amxml
def kind : XErr → String
  | .typeError => "Type Error" | .dynamicError => "Dynamic Error" | .cantOccur => "Can't Occur" | .syntaxError => "Syntax Error in XPath"
  | .unimplemented => "Feature not inplemented yet" | .panic => "PANIC" | .outOfFuel => "FUEL"
def run (xml mode q : String) : String :=
  match newDocument Heap.empty xml.toList with
  | some (.ok (h, root)) =>
    let start := match getFirstNode h 60 root (S "//*[@base=\\"base\\"]") with
      | .ok (some n) => n
      | _ => root
    if mode == "eval" then
      match evalXPath h 60 start q.toList with
      | .ok s => String.ofList (displaySeq h s)
      | .error e => kind e
    else
      match getNodeset h 60 start q.toList with
      | .ok l => String.join (l.map fun i => String.ofList (if mode == "val" then (h.node i).value else ((h.attributeValue i (S "img")).getD [])))
      | .error e => kind e
  | _ => "NO DOCUMENT"
def cases : List (String × String × String × String × String) := [
''')
o.write(',\n'.join('  (%s, %s, %s, %s, %s)'%tuple(map(lean,c)) for c in cases))
o.write(''']
#eval show IO Unit from do
  let mut bad := 0
  for (i, x, m, q, g) in cases do
    let a := run x m q
    if a != g then
      bad := bad + 1
      IO.println s!"[{i}] {m} {q}\\n   expected {g}\\n   model    {a}"
  IO.println s!"{cases.length} cases, {bad} different"
''')
print(len(cases),'cases')
