#!/usr/bin/env python3
# as mut.py, but builds only the modules with the theorems named in "want"
import json,sys,subprocess,re,os,time,glob
from mut import sync,enclosing,ROOT,SRC
where={}
for f in glob.glob(SRC+'/Verif/Props/*.lean'):
    for m in re.finditer(r'^theorem (\S+)',open(f).read(),re.M): where.setdefault(m.group(1),'Verif.Props.'+os.path.basename(f)[:-5])
def run(m):
    sync()
    p=ROOT+'/Verif/Model/'+m['file']; s=open(p).read()
    if s.count(m['old'])!=1: return dict(m,result='old string')
    open(p,'w').write(s.replace(m['old'],m['new']))
    mods=sorted({where[t] for t in m['want'] if t in where})
    if not mods: return dict(m,result='no module')
    t=time.time()
    r=subprocess.run(['lake','build']+mods,cwd=ROOT,capture_output=True,text=True)
    out=r.stdout+r.stderr; f=[]
    for a in re.finditer(r'error: (Verif/\S+?\.lean):(\d+):\d+',out):
        e=a.group(1).split('/')[-1][:-5]+':'+enclosing(ROOT+'/'+a.group(1),int(a.group(2)))
        if e not in f: f.append(e)
    return dict(m,result='ok' if r.returncode==0 else 'failed',failed=f,sec=round(time.time()-t))
ms=json.load(open(sys.argv[1]))
with open(sys.argv[1].replace('.json','.out'),'w') as o:
    for m in ms:
        r=run(m); o.write(json.dumps(r)+'\n'); o.flush()
        print(m.get('def'),'|',m['claim'][:60],'|',r['result'],r.get('failed'),m['want'],r.get('sec'),flush=True)
