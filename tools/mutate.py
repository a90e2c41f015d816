#!/usr/bin/env python3
"""mutate.py FILE.json...: try wrong programs against the theorems, in a scratch copy outside /verif.

Each input is a list of {"def", "file", "old", "new", "edit", "claim", "prop"}: the definition edited, its file below lean/Verif, the text replaced and
its replacement, the edit in words, the claim it breaks and the property (or list of properties). For each, the scratch copy is rebuilt with the edit and
one line is written to OUT (default /tmp/mut/results.jsonl) with the theorems that failed: those where the build reports an error, and those that use them.
"""
import json,os,re,subprocess,sys,shutil,time
SCR="/tmp/mut/lean"; SRC="/verif/lean"; OUT=os.environ.get("OUT","/tmp/mut/results.jsonl")
def sync():
    os.makedirs("/tmp/mut",exist_ok=True)
    subprocess.run(["rsync","-a","--delete",SRC+"/",SCR+"/"],check=True) if shutil.which("rsync") else subprocess.run(f"rm -rf {SCR}; cp -a {SRC} {SCR}",shell=True,check=True)
DECL=re.compile(r"^(?:@\[[^\]]*\]\s*)?(?:private |protected |noncomputable )*(theorem|lemma|def|instance|example|structure|inductive)\b\s*([^\s:({\[]*)",re.M)
def decls(path):
    s=open(path).read(); out=[]
    ms=list(DECL.finditer(s))
    for i,m in enumerate(ms):
        a=s[:m.start()].count("\n")+1
        end=ms[i+1].start() if i+1<len(ms) else len(s)
        b=s[:end].count("\n")+1
        out.append((a,b,m.group(1),m.group(2) or f"example at line {a}",s[m.start():end]))
    return out
def modfile(mod): return SCR+"/"+mod.replace(".","/")+".lean"
def near(file):
    area=file.split("/")[0]; top="Verif."+file[:-5].replace("/",".")
    mods={}
    for f in os.listdir(f"{SCR}/Verif/{area}"):
        if f.endswith(".lean"): mods[f"Verif.{area}.{f[:-5]}"]=set(re.findall(r"^import (Verif[\w.]*)",open(f"{SCR}/Verif/{area}/{f}").read(),re.M))
    seen={top}; grow=True
    while grow:
        grow=False
        for k,v in mods.items():
            if k not in seen and v&seen: seen.add(k); grow=True
    return sorted(seen)
def own(m):
    """The modules with the theorems of the property."""
    props=m.get("prop") or []; props=[props] if isinstance(props,str) else props
    out=[]
    for root,_,fs in os.walk(SCR+"/Verif"):
        for f in fs:
            if f.endswith("Props.lean") and any(re.search(r"theorem "+p+"_",open(os.path.join(root,f)).read()) for p in props):
                out.append("Verif"+os.path.join(root,f)[len(SCR+"/Verif"):-5].replace("/","."))
    return sorted(out)
def run(m):
    path=f"{SCR}/Verif/{m['file']}"; s=open(path).read()
    n=s.count(m["old"])
    if n<1 or (n>1 and not m.get("all")): return {"error":f"old text occurs {n} times","m":m}
    t=s.replace(m["old"],m["new"])
    open(path,"w").write(t)
    try:
        log=""
        for targets in (own(m),near(m["file"]),["Verif"]):   # the theorems of the property, then the modules of the same area; all of them when these build
            if not targets: continue
            r=subprocess.run(["lake","build"]+targets,cwd=SCR,capture_output=True,text=True,timeout=3600)
            log=r.stdout+r.stderr
            if "Build completed successfully" not in log: break
    except subprocess.TimeoutExpired as e:
        log="error: timeout"
    finally: pass
    failed=set(); model_err=[]
    files={}
    for mm in re.finditer(r"error: (?:\./)?(?:\./)*([\w/\.]+\.lean):(\d+):(\d+): (.*)",log):
        f=mm.group(1); ln=int(mm.group(2))
        p=f if f.startswith("/") else SCR+"/"+f
        if p not in files: files[p]=decls(p)
        for a,b,k,nm,_ in files[p]:
            if a<=ln<b or (ln<a and a-ln<12 and not any(x[0]<=ln<x[1] for x in files[p])):
                if p==path and k in("def","structure","inductive","instance"): model_err.append((nm,mm.group(4)))
                else: failed.add((p,nm))
                break
    # theorems that use the failed ones, by name, within the same file and in files that import it
    allf=[]
    for root,_,fs in os.walk(SCR+"/Verif"):
        for f in fs:
            if f.endswith(".lean"): allf.append(os.path.join(root,f))
    D={p:(files.get(p) or decls(p)) for p in allf}
    names={nm for _,nm in failed}
    changed=True
    imp={p:set(re.findall(r"^import (Verif[\w.]*)",open(p).read(),re.M)) for p in allf}
    mod={p:"Verif"+p[len(SCR+"/Verif"):-5].replace("/",".") for p in allf}
    def reach(p):
        seen=set();st=[p]
        inv={m:q for q,m in mod.items()}
        while st:
            q=st.pop()
            for i in imp[q]:
                if i in inv and i not in seen: seen.add(i); st.append(inv[i])
        return seen
    R={p:reach(p)|{mod[p]} for p in allf}
    fail=set(failed)
    while changed:
        changed=False
        for p in allf:
            for a,b,k,nm,body in D[p]:
                if k not in("theorem","lemma") or (p,nm) in fail: continue
                for (q,fn) in list(fail):
                    if fn.startswith("example"): continue
                    if mod[q] in R[p] and re.search(r"(?<![\w'.])(?:[A-Z]\w*\.)*"+re.escape(fn.split(".")[-1])+r"(?![\w'])",body.split(":=",1)[-1] if ":=" in body else body):
                        fail.add((p,nm)); changed=True; break
    direct=sorted({nm for _,nm in failed}); trans=sorted({nm for _,nm in fail if nm not in direct})
    ok="Build completed successfully" in log
    res={"definition":m["def"],"file":m["file"],"edit":m["edit"],"claim":m["claim"],"property":m.get("prop"),"survived":ok,"failed":direct,"failed_through_them":[x for x in trans if re.match(r"C\d\d",x)],"model_errors":model_err,"old":m["old"],"new":m["new"]}
    if not ok and not failed and not model_err: res["log"]=log[-1500:]
    open(path,"w").write(s)
    return res
if __name__=="__main__":
    if "--nosync" not in sys.argv: sync()
    done=set()   # a run that was stopped goes on where it was
    if os.path.exists(OUT):
        for l in open(OUT):
            r=json.loads(l); done.add((r.get("definition"),r.get("old"),r.get("new")))
    for f in [a for a in sys.argv[1:] if not a.startswith("--")]:
        for m in json.load(open(f)):
            if (m["def"],m["old"],m["new"]) in done: continue
            while subprocess.run(["pgrep","-f","vgate/verdict.py"],capture_output=True).returncode==0: time.sleep(15)
            r=run(m)
            with open(OUT,"a") as o: o.write(json.dumps(r,ensure_ascii=False)+"\n")
            if "error" in r: print("ERR",r["error"],m["def"],m["edit"])
            else: print("SURVIVED" if r["survived"] else ("MODELERR" if r["model_errors"] else "killed"),m["def"],"|",m["edit"],"|",r["failed"][:6],r["failed_through_them"][:6],r["model_errors"][:1],flush=True)
