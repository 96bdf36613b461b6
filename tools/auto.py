# automatic mutants of every model definition
import re,glob,json,random,os
random.seed(7)
D='/verif/lean/Verif/Model/'
tried=set()
for f in glob.glob('/tmp/w/m*.out'):
    for l in open(f):
        r=json.loads(l); tried.add((r['file'],r['old'],r['new']))
OPS=[(r' < ',' ≤ '),(r' ≤ ',' < '),(r' > ',' ≥ '),(r' ≥ ',' > '),(r' = ',' ≠ '),(r' ≠ ',' = '),(r' ∧ ',' ∨ '),(r' ∨ ',' ∧ '),(r' && ',' || '),(r' \|\| ',' && '),
 (r' \+ 1\b',''),(r' - 1\b',''),(r' \+ ',' - '),(r' - ',' + '),(r'\btrue\b','false'),(r'\bfalse\b','true'),(r'\bmax ','min '),(r'\bmin ','max '),(r'!\(','('),(r'\bsome \(','some (id '),
 (r'\.1\b','.2'),(r'\.2\b','.1'),(r' 0\b',' 1'),(r' 1\b',' 0'),(r' 2\b',' 3'),(r'\bdropLast\b','id'),(r'\.tail\b',''),(r'\.reverse\b',''),(r'\.lo\b','.hi'),(r'\.hi\b','.lo'),(r'⌊','⌈'),(r'getLast\?','head?'),(r'\bfilter\b','filter'),(r'-\(',' ('),(r' \* ',' + '),(r'\|\|',' && ')]
out=[]
for p in sorted(glob.glob(D+'*.lean')):
    f=os.path.basename(p)
    s=open(p).read()
    for m in re.finditer(r'^(?:@\[[^\]]*\] )?def (\S+)(.*?)(?=^\S|\Z)',s,re.M|re.S):
        name,body=m.group(1),m.group(0)
        i=body.find(':=')
        if i<0:
            i=body.find('\n  |')
            if i<0: continue
        head,b=body[:i+2],body[i+2:]
        c=[]
        for o,n in OPS:
            for h in re.finditer(o,b):
                nb=b[:h.start()]+n+b[h.end():]
                if nb!=b: c.append((head+b,head+nb,'%s -> %s at %s'%(h.group(0).strip(),n.strip(),b[max(0,h.start()-25):h.end()+25].replace('\n',' ').strip())))
        # swap branches of simple one-line if
        for h in re.finditer(r'then ([^\n]+?) else ([^\n]+)',b):
            if ' if ' in h.group(0) : continue
            nb=b[:h.start()]+'then %s else %s'%(h.group(2),h.group(1))+b[h.end():]
            c.append((head+b,head+nb,'branches swapped: '+h.group(0)[:50]))
        # record field updates dropped: ", x := e }" 
        for h in re.finditer(r'(?<=with )(\w+ := [^,}]+), ',b):
            c.append((head+b,head+b[:h.start()]+b[h.end():],'update dropped: '+h.group(1)[:40]))
        for h in re.finditer(r', (\w+ := [^,}]+)(?= })',b):
            c.append((head+b,head+b[:h.start()]+b[h.end():],'update dropped: '+h.group(1)[:40]))
        random.shuffle(c)
        if s.count(body)!=1: continue
        for o,n,t in c[:3]: out.append(dict(file=f,**{'def':name},old=o,new=n,claim='automatic: '+t))
random.shuffle(out)
print(len(out))
# split among two workers by file
files=sorted({o['file'] for o in out})
per={f:[o for o in out if o['file']==f] for f in files}
HEAVY={'Num.lean','Sparse.lean','Disj.lean','SolverOps.lean'}
w=[[],[]]
for f in sorted(files,key=lambda f:-len(per[f])):
    L=per[f]
    k=0 if len(w[0])<=len(w[1]) else 1
    w[k]+=L
for k in (0,1):
    print(len(w[k])); json.dump(w[k],open('/tmp/w/auto%d.json'%k,'w'))
