"""Writes COVERAGE.md: for each source file the functions whose lines the model cites, and those it does not."""
import re,glob,os
cited={}
for f in glob.glob('/verif/lean/Verif/**/*.lean',recursive=True):
    s=open(f).read()
    mod=f[len('/verif/lean/'):-5].replace('/','.')
    for m in re.finditer(r'((?:src|workers)/[\w/\.]+\.[ch]):\s*(\d[\d\s,and-]*)',s):
        for r in re.finditer(r'(\d+)(?:-(\d+))?',m.group(2)):
            a=int(r.group(1)); b=int(r.group(2) or a)
            if b>=a: cited.setdefault(m.group(1),[]).append((a,b,mod))
def functions(p):
    L=open('/repo/'+p,errors='replace').read().split('\n')
    out=[];i=0
    while i<len(L):
        m=re.match(r'^(?:static |inline |const )*[\w][\w\s\*]*?\b\**(\w+)\s*\(',L[i])
        if m and not L[i].startswith(('#','typedef','//','return','else')) and m.group(1) not in('if','while','for','switch'):
            j=i
            while j<len(L) and '{' not in L[j] and ';' not in L[j]: j+=1
            if j<len(L) and '{' in L[j] and (';' not in L[j] or L[j].index('{')<L[j].index(';')):
                k=j
                while k<len(L) and not L[k].startswith('}') and not (k==j and L[k].rstrip().endswith('}')): k+=1
                out.append((m.group(1),i+1,k+1)); i=k
        i+=1
    return out
files=sorted(x[6:] for p in('/repo/src','/repo/workers') for d,_,fs in os.walk(p) for x in [os.path.join(d,y) for y in fs] if x.endswith(('.c','.h')) and '/win32/' not in x and '/ai/' not in x)
o=["# What is modelled","",
"Generated by `tools/coverage.py` from the lines cited in the model: a function counts as modelled when a definition cites lines of",
"its body.  What a definition leaves out of a function is said in its comment.  Files with no modelled function are listed last.",""]
none=[]; tot=cov=0
for f in files:
    fs=functions(f)
    if not fs: continue
    c=cited.get(f,[])
    yes=[];no=[]
    for n,a,b in fs:
        mods=sorted({m for x,y,m in c if min(y,b)-max(x,a)>=min(1,b-a)})
        (yes if mods else no).append(n)
    tot+=len(fs); cov+=len(yes)
    if not yes: none.append((f,len(fs))); continue
    mods=sorted({m.split('.')[1] for x,y,m in c})
    o.append(f"## {f} ({len(yes)} of {len(fs)})"); o.append("")
    o.append("Modelled in "+", ".join("`"+m+"`" for m in mods)+": "+", ".join("`"+x+"`" for x in yes)+"."); o.append("")
    if no: o.append("Not modelled: "+", ".join("`"+x+"`" for x in no)+"."); o.append("")
o.append("## Files not modelled"); o.append("")
o.append(", ".join(f"`{f}` ({n})" for f,n in none)+"; `src/core/ai`, `src/os/win32`, and the clients outside of `src` and `workers`.")
o.append("")
open('/verif/COVERAGE.md','w').write("\n".join(o))
print(cov,tot)
