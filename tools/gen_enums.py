#!/usr/bin/env python3
"""Writes lean/Verif/Strings/EnumTables.lean from the generated enumerations in /repo/dal/auto."""
import re,glob,os
out=["import Verif.Strings.EnumModel","","/-! # The tables of the enumerated types","","Written by `tools/gen_enums.py` from `/repo/dal/auto/MG_*_enum.hpp` and `MG_*_enum.inc`. -/","","namespace Dal.Strings",""]
names=[]
q=lambda s:f'"{s}".toList'
for inc in sorted(glob.glob("/repo/dal/auto/MG_*_enum.inc")):
    n=re.match(r".*/MG_(\w+)_enum\.inc",inc).group(1)
    hpp=open(f"/repo/dal/auto/MG_{n}_enum.hpp").read(); src=open(inc).read()
    body=re.search(r"enum class Value_ : char\s*\{(.*?)\}",hpp,re.S)
    vals=[v.strip().split("=")[0] for v in body.group(1).split(",")]
    vals=[v for v in vals if v and v not in("_NOT_SET","_N_VALUES","_EXTENSION")]
    line=lambda text,pos: text[:pos].count("\n")+1
    prints=[(m.start(),m.group(1),m.group(2)) for m in re.finditer(r"case Value_::(\w+):\s*return \"([^\"]*)\"",src)]
    reads=[(m.start(),m.end(),m.group(1),m.group(2)) for m in re.finditer(r"Equivalent\(src, \"([^\"]*)\"\)\)\s*\*val = \w+::Value_::(\w+)",src)]
    assert len(reads)==src.count("Equivalent("), n
    listed=[(m.start(),m.group(1),m.group(2)) for m in re.finditer(r"emplace_back\((?:\w+::Value_::(\w+)|\"([^\"]*)\")\)",src)]
    d=n[0].lower()+n[1:]+"Table"
    names.append(d)
    out.append(f"/-- `MG_{n}_enum.hpp` {line(hpp,body.start())}–{line(hpp,body.end())}, `MG_{n}_enum.inc`: `String` {line(src,prints[0][0])}–{line(src,prints[-1][0])+1}, reading {line(src,reads[0][0])}–{line(src,reads[-1][1])}, listing {line(src,listed[0][0])}–{line(src,listed[-1][0])}. -/")
    out.append(f"def {d} : EnumTable where")
    def wrap(items,ind):
        lines=[];cur=ind
        for i,x in enumerate(items):
            t=x+("," if i+1<len(items) else "]")
            if len(cur)+len(t)+1>150: lines.append(cur.rstrip()); cur=ind
            cur+=t+" "
        lines.append(cur.rstrip())
        return "\n".join(lines)
    def fld(k,items): out.append(f"  {k} := ["); out.append(wrap(items,"    "))
    fld("values",[q(v) for v in vals])
    fld("printed",[f"({q(a)}, {q(b)})" for _,a,b in prints])
    fld("reads",[f"({q(a)}, {q(b)})" for _,_,a,b in reads])
    fld("listed",[f".value {q(a)}" if a else f".text {q(b)}" for _,a,b in listed])
    out.append("")
out.append("/-- All of them. -/")
out.append("def allTables : List EnumTable :=")
s="  ["+", ".join(names)+"]"
import textwrap
out+= textwrap.wrap(s,150,initial_indent="  ",subsequent_indent="   ")
out+=["","end Dal.Strings",""]
open("/verif/lean/Verif/Strings/EnumTables.lean","w").write("\n".join(out))
