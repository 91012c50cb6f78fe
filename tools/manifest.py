import re,glob,json,os
notes=json.load(open('/verif/tools/notes.json'))
th={}
for f in sorted(glob.glob('/verif/lean/Verif/Props/*.lean')):
    ns=[]
    for line in open(f):
        m=re.match(r'namespace (\S+)',line)
        if m: ns.append(m.group(1))
        m=re.match(r'end (\S+)',line)
        if m and ns and ns[-1]==m.group(1): ns.pop()
        m=re.match(r'(?:protected )?theorem (C\d\d)(_\w+)',line)
        if m: th.setdefault(m.group(1),[]).append('.'.join(ns)+'.'+m.group(1)+m.group(2))
ids=[json.loads(l)['id'] for l in open('/verif/properties.jsonl')]
cl=[]
for i in ids:
    if i in th:
        n=notes.get(i,{})
        st=n.get('status') or ('partial' if all(t.endswith('_partial') for t in th[i]) else 'proved')
        cl.append({"property":i,"status":st,"theorems":th[i],"note":n.get('note','')})
    elif i in notes:
        n=notes[i]; cl.append({"property":i,"status":n['status'],"theorems":[],"note":n['note']})
json.dump({"claims":cl},open('/verif/MANIFEST.json','w'),indent=1)
print([i for i in ids if i not in th])
