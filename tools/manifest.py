import re,glob,json
# theorem names grouped by property, from the Props files
names={}
for f in sorted(glob.glob('/verif/lean/Verif/Props/*.lean')):
    src=open(f).read()
    ns='Xdr'
    stack=[]
    for line in src.split('\n'):
        m=re.match(r'namespace (\S+)',line)
        if m: stack.append(m.group(1)); continue
        m=re.match(r'end (\S+)',line)
        if m and stack and stack[-1]==m.group(1): stack.pop(); continue
        m=re.match(r'(?:private )?theorem ((C\d\d+)_\S+)',line)
        if m: names.setdefault(m.group(2),[]).append('.'.join(stack+[m.group(1)]))
notes=json.load(open('/verif/tools/notes.json'))
props=[json.loads(l) for l in open('/verif/properties.jsonl') if l.strip()]
claims=[]
for p in props:
    i=p['id']; n=notes.get(i,{})
    th=names.get(i,[])
    if not th:
        continue
    st='partial' if any(t.endswith('_partial') or t.endswith('_violated') for t in th) else 'proved'
    st=n.get('status',st)
    claims.append({"property":i,"status":st,"theorems":th,"note":n.get('note','')})
json.dump({"claims":claims},open('/verif/MANIFEST.json','w'),indent=1)
for c in claims: print(c['property'],c['status'],len(c['theorems']))
