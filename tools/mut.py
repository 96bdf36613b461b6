#!/usr/bin/env python3
# usage: mut.py FILE.json : list of {file,def,old,new,claim}
import json,sys,subprocess,re,os,time,shutil
ROOT=os.environ.get('MROOT','/tmp/mut/lean')
SRC=os.environ.get('MSRC','/verif/lean')
def sync():
    subprocess.run(['rsync','-a','--delete','--exclude','.lake',SRC+'/Verif/',ROOT+'/Verif/']) if shutil.which('rsync') else subprocess.run('rm -rf %s/Verif && cp -r %s/Verif %s/Verif'%(ROOT,SRC,ROOT),shell=True)
    shutil.copy(SRC+'/Verif.lean',ROOT+'/Verif.lean')
def enclosing(path,line):
    L=open(path).read().split('\n')
    for i in range(min(line,len(L))-1,-1,-1):
        m=re.match(r'(?:@\[[^\]]*\]\s*)?(?:private\s+)?(theorem|def|example|structure|instance|lemma)\b\s*(\S*)',L[i])
        if m: return m.group(1)+' '+m.group(2) if m.group(1)!='theorem' else m.group(2)
    return '?'
def run(m):
    sync()
    p=ROOT+'/Verif/Model/'+m['file']
    s=open(p).read()
    n=s.count(m['old'])
    if n!=1: return dict(m,result='old string occurs %d times'%n)
    open(p,'w').write(s.replace(m['old'],m['new']))
    t=time.time()
    r=subprocess.run(['lake','build'],cwd=ROOT,capture_output=True,text=True)
    out=r.stdout+r.stderr
    f=[]
    for a in re.finditer(r'error: (Verif/\S+?\.lean):(\d+):\d+',out):
        e=a.group(1).split('/')[-1][:-5]+':'+enclosing(ROOT+'/'+a.group(1),int(a.group(2)))
        if e not in f: f.append(e)
    return dict(m,result='ok' if r.returncode==0 else 'failed',failed=f,sec=round(time.time()-t))
if __name__=='__main__':
    ms=json.load(open(sys.argv[1]))
    outp=sys.argv[1].replace('.json','.out')
    with open(outp,'w') as o:
        for m in ms:
            r=run(m); o.write(json.dumps(r)+'\n'); o.flush()
            print(m.get('def'),'|',m['claim'][:60],'|',r['result'],r.get('failed'),r.get('sec'),flush=True)
