#!/usr/bin/env python3
"""Regenerate MANIFEST.json from the property theorems (names starting with C<nn>_) and notes.json."""
import glob, json, os, re
root = os.path.dirname(os.path.dirname(os.path.abspath(__file__)))
props = [json.loads(l)["id"] for l in open(f"{root}/properties.jsonl") if l.strip()]
notes = json.load(open(f"{root}/tools/notes.json"))
thms = {p: [] for p in props}
for f in sorted(glob.glob(f"{root}/lean/Verif/**/*.lean", recursive=True)):
    ns = []
    for line in open(f):
        m = re.match(r"namespace (\S+)", line)
        if m: ns.append(m.group(1)); continue
        m = re.match(r"end (\S+)", line)
        if m and ns and ns[-1] == m.group(1): ns.pop(); continue
        m = re.match(r"theorem ((C\d+)_\S+)", line)
        if m: thms[m.group(2)].append(".".join(ns + [m.group(1)]))
claims = []
for p in props:
    if not thms[p] and p not in notes: continue
    n = notes.get(p, {})
    status = n.get("status") or ("partial" if any(t.endswith("_partial") for t in thms[p]) else "proved")
    claims.append({"property": p, "status": status, "theorems": thms[p], "note": n.get("note", "")})
json.dump({"claims": claims}, open(f"{root}/MANIFEST.json", "w"), indent=1)
print(len(claims), "claims,", sum(len(c["theorems"]) for c in claims), "theorems; missing:", [p for p in props if not thms[p]])
