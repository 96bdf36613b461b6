import json
C={}
def c(p,s,t,n): C[p]=dict(property=p,status=s,theorems=t.split(),note=n)
def a(p,t): C[p]['theorems']+=[x for x in t.split() if x not in C[p]['theorems']]
exec(open('/tmp/w/man_data.py').read())
ids=[json.loads(l)['id'] for l in open('/verif/properties.jsonl')]
out=[C[i] for i in ids if i in C]
miss=[i for i in ids if i not in C]
json.dump({"claims":out},open('/verif/MANIFEST.json','w'),indent=1)
print(len(out),'missing',miss, 'extra',[k for k in C if k not in ids])
import re,glob
src='\n'.join(open(f).read() for f in glob.glob('/verif/lean/Verif/**/*.lean',recursive=True))
for k,v in C.items():
    for t in v['theorems']:
        if not re.search(r'theorem\s+'+re.escape(t.split('.')[-1])+r'\b',src): print('no such theorem',k,t)
