#!/usr/bin/env python3
"""note.py id text [status]: set the manifest note of a property."""
import json,sys,os
root=os.path.dirname(os.path.dirname(os.path.abspath(__file__)))
p=f"{root}/tools/notes.json"; n=json.load(open(p)); n[sys.argv[1]]={"note":sys.argv[2]}
if len(sys.argv)>3: n[sys.argv[1]]["status"]=sys.argv[3]
json.dump(n,open(p,"w"),indent=1,sort_keys=True)
