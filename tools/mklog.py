import json,os,re
NOTES={ # (definition,edit) -> (tightened, note)
("Ann.standardOverride","C06"):([], "equivalent mutant: the edited program behaves the same on every reachable state"),
}
tight=json.load(open("/tmp/mut/tight.json")) if os.path.exists("/tmp/mut/tight.json") else []
deps=json.load(open("/tmp/mut/deps.json")) if os.path.exists("/tmp/mut/deps.json") else {}
claims={c["property"]:c["theorems"] for c in json.load(open("/verif/MANIFEST.json"))["claims"]}
def dependents(e):
    bad={x.split(":")[1] for x in e.get("theorems_failed",[]) if ":" in x and "example@" not in x}
    r=set()
    for c in e["claim"].split():
        for t in claims.get(c,[]):
            last={y.split(".")[-1] for y in deps.get(t,[])}|{y.split(".",1)[-1] for y in deps.get(t,[])}
            if bad & last: r.add(t)
    return sorted(r)
out=open("/verif/seeded/LOG.jsonl","w")
n=0
for f in ["a","b","c","d","e","f","g","h","i","j","k","l","m","n","o","p","r"]:
    p="/tmp/mut/%s.out"%f
    if not os.path.exists(p): continue
    for l in open(p):
        e=json.loads(l)
        failed=e.get("claim_theorems_failed",[]); dep=[x for x in sorted(set(e.get("claim_theorems_depending_on_failed_lemmas",[]))|set(dependents(e))) if x not in failed]
        r={"definition":"Verif/"+e["file"]+": "+e["definition"],"edit":e["edit"],"claim":e["claim"],
           "theorems_failed":failed,"theorems_depending_on_failed_lemmas":dep,"all_failures":e.get("theorems_failed",[]),"theorems_tightened":[]}
        r["verdict"]="caught" if failed or dep else "survived"
        for t in tight:
            if t["definition"]==e["definition"] and t["claim"]==e["claim"] and t.get("batch",f)==f and t.get("edit","") in e["edit"]:
                r["theorems_tightened"]=t.get("tightened",[]); r["note"]=t.get("note","")
        if not (failed or dep) and "note" not in r: print("SURVIVED",f,json.dumps(e))
        out.write(json.dumps(r)+"\n"); n+=1
print(n)
