#!/usr/bin/env python3
"""log_mutations.py: write seeded/LOG.jsonl from the results of mutate.py (/tmp/mut/res_*.jsonl), keeping lines already there.

seeded/survivors.json says what was done about edits that broke no theorem when first tried: [{"definition", "edit", "tightened", "note"}].
"""
import glob,json,os,re
root=os.path.dirname(os.path.dirname(os.path.abspath(__file__)))
log=f"{root}/seeded/LOG.jsonl"
surv={(r["definition"],r["edit"]):r for r in json.load(open(f"{root}/seeded/survivors.json"))}
have=[json.loads(l) for l in open(log) if l.strip()]
key=lambda r:(r["definition"],r["edit"],r["claim"])
todo=[]
for f in sorted(glob.glob("/tmp/mut/res_*.jsonl"),key=os.path.getmtime):
    for l in open(f):
        r=json.loads(l)
        if "error" in r: continue
        own=[x for x in r["failed"] if not x.startswith("example")]
        failed=[x for x in own if re.match(r"C\d\d",x)]+r["failed_through_them"]
        lemmas=[x for x in own if not re.match(r"C\d\d",x)]
        o={"definition":r["definition"],"file":r["file"],"edit":r["edit"],"claim":r["claim"],"failed":sorted(set(failed)),"failed_lemmas":lemmas,"tightened":[]}
        if r["model_errors"]: o["note"]="the edited model did not compile: "+str(r["model_errors"][0][0])
        elif not failed and not r["survived"] and lemmas: o["note"]="only helper lemmas failed"
        elif not failed and not r["survived"]: o["note"]="only the concrete example beside a theorem failed"
        s=surv.get((r["definition"],r["edit"]))
        if s:
            o["tightened"]=s.get("tightened",[])
            if s.get("note"): o["note"]=s["note"]
        elif r["survived"]: todo.append((r["definition"],r["edit"]))
        mine=[x for x in have if key(x)==key(o)]
        # one line per outcome: the same edit gets a second line only when it was tried again and other theorems failed
        same=[x for x in mine if x["failed"]==o["failed"]]
        if same: continue
        if mine:
            if not any(x["failed"] for x in mine) and o["failed"]: o["note"]="again, after tightening"; o["tightened"]=[]
            if len(mine)>1: have[have.index(mine[-1])]=o; continue
        have.append(o)
with open(log,"w") as f:
    for r in have: f.write(json.dumps(r,ensure_ascii=False)+"\n")
print(len(have),"lines; survivors without an entry:",todo)
print("no theorem failed:",[(r["definition"],r["edit"],r.get("note")) for r in have if not r["failed"] and not r["tightened"]])
