import json,re,glob,sys
exec(open('/verif/tools/claims.py').read())
names=set()
for fn in glob.glob('/verif/lean/Verif/**/*.lean',recursive=True):
    ns=[]
    for line in open(fn):
        m=re.match(r'namespace (\S+)',line)
        if m: ns.append(m.group(1))
        m=re.match(r'end (\S+)',line)
        if m and ns and ns[-1]==m.group(1): ns.pop()
        m=re.match(r'(?:private )?theorem (\S+)',line)
        if m: names.add('.'.join(ns+[m.group(1)]))
out=[]
seen=set()
for pid,status,ths,note in CLAIMS:
    full=[]
    for t in ths:
        c=[n for n in names if n==t or n.endswith('.'+t)]
        if len(c)!=1: print("MISSING",pid,t,c)
        f=c[0] if c else t
        full.append(f); seen.add(f)
    out.append(dict(property=pid,status=status,theorems=full,note=note))
for n in sorted(names):
    if re.match(r'Stempy\.\w+\.C\d\d',n) and n not in seen: print("unclaimed",n)
props=[json.loads(l)['id'] for l in open('/verif/properties.jsonl')]
have={c['property'] for c in out}
print("no claim:",[p for p in props if p not in have])
json.dump({"claims":out},open('/verif/MANIFEST.json','w'),indent=1)
