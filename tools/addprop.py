#!/usr/bin/env python3
"""addprop.py id title statement quantifier why anchors(;-separated): append a property."""
import json,sys,os
root=os.path.dirname(os.path.dirname(os.path.abspath(__file__)))
i,t,s,q,w,a=sys.argv[1:7]
open(f"{root}/properties.jsonl","a").write(json.dumps({"id":i,"title":t,"statement":s,"quantifier":q,"why_tests_cant":w,"anchors":[x.strip() for x in a.split(";")]})+"\n")
