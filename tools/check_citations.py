import re,glob,os,collections
rs=collections.defaultdict(list)
for root,_,fs in os.walk('/repo'):
    if '/target' in root or '/.git' in root: continue
    for f in fs:
        if f.endswith('.rs'): rs[f].append(os.path.join(root,f)[6:])
allp=[p for l in rs.values() for p in l]
cache={}
def lines(p):
    if p not in cache: cache[p]=open('/repo/'+p,errors='ignore').read().split('\n')
    return cache[p]
bad=0;tot=0;nores=0
for f in sorted(glob.glob('Verif/**/*.lean',recursive=True)):
    s=open(f).read()
    for m in re.finditer(r'/--(.*?)-/',s,re.S):
        c=m.group(1)
        ids=re.findall(r'`([A-Za-z_][A-Za-z_0-9:]*)`',c)
        cm=re.search(r'([\w/\-]+\.rs)\s+(?:lines\s+)?(\d+)-(\d+)',c)
        if not cm or not ids: continue
        path,a,b=cm.group(1),int(cm.group(2)),int(cm.group(3))
        cand=[p for p in allp if p==path or p.endswith('/'+path)]
        tot+=1
        ln=s[:m.start()].count('\n')+1
        if not cand: nores+=1; print('NOFILE',f,ln,path); continue
        name=ids[0].split('::')[-1]
        ok=False; near=[]
        for p in cand:
            L=lines(p)
            if any(re.search(r'\b'+re.escape(name)+r'\b',x) for x in L[max(0,a-4):b+3]): ok=True
            d=[i+1 for i,x in enumerate(L) if re.search(r'(fn|struct|enum|type|const|trait)\s+'+re.escape(name)+r'\b',x)]
            near+=d
        if not ok:
            for p in cand:
                L=lines(p)
                for i,x in enumerate(L):
                    if i+1<=a and re.search(r'(fn|struct|enum|type|const|trait|impl)\b.*\b'+re.escape(name)+r'\b',x):
                        ind=re.match(r' *',x).group(0)
                        e=next((j for j in range(i+1,len(L)) if L[j].startswith(ind+'}')),len(L))
                        if b<=e+2: ok=True
        if not ok and near: bad+=1; print('BAD',f,ln,name,path,a,b,'defs at',near[:4])
print(tot,bad,nores)
