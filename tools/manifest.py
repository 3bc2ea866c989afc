#!/usr/bin/env python3
"""Writes MANIFEST.json. Each claim: (property, status, [theorems], note)."""
import json
C=[]
def c(prop,status,thms,note=''): C.append(dict(property=prop,status=status,theorems=thms.split(),note=note))
exec(open('/verif/tools/claims.py').read())
json.dump({"claims":C},open('/verif/MANIFEST.json','w'),indent=1,ensure_ascii=False)
print(len(C),'claims',sum(len(x['theorems']) for x in C),'theorems')
