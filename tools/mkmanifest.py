# generates ../MANIFEST.json; run from anywhere
import json, os, re, glob
here=os.path.dirname(os.path.abspath(__file__))
C=[]
def c(prop,status,theorems,note=""): C.append(dict(property=prop,status=status,theorems=["Spiff."+t for t in theorems.split()],note=note))
exec(open(os.path.join(here,"claims.py")).read())
names=set()
for f in glob.glob(os.path.join(here,"..","lean","Verif","**","*.lean"),recursive=True):
    for m in re.finditer(r"^(?:private )?theorem ([^\s:({\[]+)",open(f).read(),re.M): names.add("Spiff."+m.group(1))
P=set()
for f in glob.glob(os.path.join(here,"..","lean","Verif","Props","*.lean")):
    s=open(f).read()
    if "namespace Spiff.Props" in s: P|={m.group(1) for m in re.finditer(r"^theorem ([^\s:({\[]+)",s,re.M)}
for x in C:
    for t in x["theorems"]:
        if t not in names and not ("Spiff."+t.split(".")[-1] in names and t.split(".")[1][0].isupper()): print("MISSING",x["property"],t)
    x["theorems"]=["Spiff.Props."+t[6:] if t[6:] in P else t for t in x["theorems"]]
ids=[json.loads(l)["id"] for l in open(os.path.join(here,"..","properties.jsonl"))]
done={x["property"] for x in C}
print("unclaimed:",[i for i in ids if i not in done], "unknown:",[i for i in done if i not in ids])
json.dump({"claims":C},open(os.path.join(here,"..","MANIFEST.json"),"w"),indent=1)
