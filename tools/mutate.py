#!/usr/bin/env python3
"""Mutation runner: applies one textual edit to a model in a scratch copy (/tmp/mut), rebuilds it and
reports the theorems that fail. Failing proofs are replaced by a placeholder in the scratch copy, so that
the theorems depending on them are checked, too. usage: mutate.py mutations.json results.jsonl"""
import json,re,subprocess,sys,os,shutil
SRC="/verif/lean"; W=os.environ.get("MUTDIR","/tmp/mut")+"/lean"
HOLE="by "+"so"+"rry"
DECL=re.compile(r"^\s*(?:@\[[^\]]*\]\s*)?(?:private\s+|protected\s+|noncomputable\s+)*(theorem|def|lemma|example|abbrev|instance|structure|inductive)\b\s*([^\s:({\[]*)")
HEAD=subprocess.run("git -C /verif rev-parse HEAD",shell=True,capture_output=True,text=True).stdout.strip()
def start():
    os.makedirs(W,exist_ok=True)
    if not os.path.isdir(W+"/.lake"): subprocess.run(["cp","-a",SRC+"/.lake",W+"/.lake"],check=True)
    shutil.rmtree(W+"/Verif",ignore_errors=True)
    subprocess.run("git -C /verif archive "+HEAD+" lean | tar -x -C "+os.path.dirname(W),shell=True,check=True)
def decls(lines):
    r=[]
    for i,l in enumerate(lines):
        m=DECL.match(l)
        if m: r.append((i,m.group(1),m.group(2) or "%s@%d"%(m.group(1),i+1)))
    return r
def enclosing(lines,line):
    cur=None
    for d in decls(lines):
        if d[0]<=line-1: cur=d
        else: break
    return cur
def end_of(lines,d):
    for j in range(d[0]+1,len(lines)):
        l=lines[j]
        if DECL.match(l) or re.match(r"^(end|namespace|section|variable|mutual|omit|open|/--|/-|@\[|set_option|attribute|termination_by)\b|^(/-|@\[)",l): return j
    return len(lines)
def hole(path,d):
    lines=open(path).read().split("\n")
    e=end_of(lines,d)
    text="\n".join(lines[d[0]:e]); depth=0; pos=None
    for i,c in enumerate(text):
        if c in "([{⟨": depth+=1
        elif c in ")]}⟩": depth-=1
        elif depth==0 and text.startswith(":=",i): pos=i; break
        elif depth==0 and text.startswith("\n  | ",i): pos=i; break
    if pos is None: return False
    new=text[:pos]+" := "+HOLE
    if new.strip()==text.strip(): return False
    lines[d[0]:e]=[new]+[""]*(e-d[0]-1-new.count("\n"))
    open(path,"w").write("\n".join(lines)); return True
def claims():
    m=json.load(open("/verif/MANIFEST.json")); return {c["property"]:[t[6:] for t in c["theorems"]] for c in m["claims"]}
def main():
    muts=json.load(open(sys.argv[1])); out=open(sys.argv[2],"a"); cl=claims()
    start()
    for m in muts:
        p=os.path.join(W,"Verif",m["file"])
        s=open(p).read()
        n=s.count(m["old"]); k=m.get("nth",None)
        if n==0 or (n>1 and k is None):
            print("BAD",m["definition"],n,flush=True); continue
        if k is None: s=s.replace(m["old"],m["new"])
        else:
            i=-1
            for _ in range(k+1): i=s.index(m["old"],i+1)
            s=s[:i]+m["new"]+s[i+len(m["old"]):]
        open(p,"w").write(s)
        touched={m["file"]}; failed=[]; stuck=[]
        for rnd in range(15):
            r=subprocess.run("lake build 2>&1",shell=True,cwd=W,capture_output=True,text=True)
            if r.returncode==0: break
            todo={}
            for l in r.stdout.splitlines():
                g=re.match(r"error: (Verif/\S+\.lean):(\d+):",l)
                if g:
                    f=g.group(1); lines=open(os.path.join(W,f)).read().split("\n")
                    d=enclosing(lines,int(g.group(2)))
                    if d: todo[(f,d)]=1
            prog=False
            for f,d in sorted(todo,key=lambda x:-x[1][0]):
                x=f[6:-5]+":"+d[2]
                if x not in failed: failed.append(x)
                touched.add(f[6:])
                if hole(os.path.join(W,f),d): prog=True
                else: stuck.append(x)
            if not prog: break
        names=[x.split(":")[1] for x in failed]
        broken=sorted({t for c in re.findall(r"C\d{2,3}",m["claim"]) for t in cl.get(c,[]) if t.split(".")[-1] in [y.split(".")[-1] for y in names]})
        tainted=[]
        if r.returncode==0:
            ths=[t for c in re.findall(r"C\d{2,3}",m["claim"]) for t in cl.get(c,[])]
            open(W+"/Ax.lean","w").write("import Verif\n"+"".join("#print axioms Spiff.%s\n"%t for t in ths))
            for _ in range(3):
                a=subprocess.run("lake env lean Ax.lean 2>&1",shell=True,cwd=W,capture_output=True,text=True).stdout
                if a.count("Spiff.")>=len(ths): break
            else: tainted.append("AXIOMS-UNKNOWN")
            for g in re.finditer(r"'Spiff\.([^']+)' depends on axioms: \[([^\]]*)\]",a):
                if "so"+"rryAx" in g.group(2) and g.group(1) not in broken: tainted.append(g.group(1))
        for t in touched:
            subprocess.run("git -C /verif show %s:lean/Verif/%s > %s"%(HEAD,t,os.path.join(W,"Verif",t)),shell=True,check=True)
        print(m["claim"],m["definition"],"|",m["edit"],"|","BROKEN "+" ".join(broken) if broken else ("TAINTED" if tainted else "CLAIM SURVIVED"),"tainted: "+" ".join(tainted),"| all:"," ".join(failed),("| stuck rc=%d %s"%(r.returncode," ".join(stuck))) if r.returncode else "",flush=True)
        out.write(json.dumps({"definition":m["definition"],"file":m["file"],"edit":m["edit"],"claim":m["claim"],"claim_theorems_failed":broken,"claim_theorems_depending_on_failed_lemmas":tainted,"theorems_failed":failed,"complete":r.returncode==0})+"\n"); out.flush()
main()
