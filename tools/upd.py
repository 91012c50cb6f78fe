#!/usr/bin/env python3
"""usage: upd.py <<json {"Cxx": {"statement"?:..., "title"?:..., "note"?:..., "new"?: {...}}}: update properties.jsonl and notes.json"""
import json,sys
u=json.load(sys.stdin)
p='/verif/properties.jsonl'; L=[json.loads(l) for l in open(p)]
n=json.load(open('/verif/tools/notes.json'))
ids={o['id']:o for o in L}
for k,v in u.items():
    if 'new' in v:
        o=dict(id=k,**v['new']); 
        if k in ids: ids[k].update(o)
        else: L.append(o); ids[k]=o
    for f in ('statement','title','quantifier','why_tests_cant','anchors'):
        if f in v: ids[k][f]=v[f]
    if 'note' in v: n.setdefault(k,{})['note']=v['note']
    if 'status' in v: n.setdefault(k,{})['status']=v['status']
open(p,'w').write('\n'.join(json.dumps(o) for o in L)+'\n')
json.dump(n,open('/verif/tools/notes.json','w'),indent=1)
