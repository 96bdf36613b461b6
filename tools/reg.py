# usage: reg.py  -- reads /tmp/w/reg_data.py: M=[(name,desc)], R=[(Cxx,models,how,note)], imports=[...]
import re
exec(open('/tmp/w/reg_data.py').read())
p='/verif/DESIGN.md'; L=open(p).read().split('\n')
for n,d in M:
    row='| `%s` | %s |'%(n,d)
    if row in L: continue
    i=max(k for k,l in enumerate(L) if re.match(r'\| `[A-Za-z]+` \| ',l))
    L.insert(i+1,row)
for c,m,h,t in R:
    row='| %s | %s | %s | %s |'%(c,m,h,t)
    if row in L: continue
    i=max(k for k,l in enumerate(L) if re.match(r'\| C\d+ \| ',l))
    L.insert(i+1,row)
open(p,'w').write('\n'.join(L))
p='/verif/lean/Verif.lean'; s=open(p).read()
for m in imports:
    if 'import '+m+'\n' not in s: s=s.rstrip('\n')+'\nimport '+m+'\n'
open(p,'w').write(s)
