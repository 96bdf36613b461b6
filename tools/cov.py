import re,glob,os
files={os.path.basename(f):f for f in glob.glob('/repo/src/**/*.cpp',recursive=True)+glob.glob('/repo/include/**/*.hpp',recursive=True)}
cov={k:set() for k in files}
for f in glob.glob('/verif/lean/Verif/**/*.lean',recursive=True):
    txt=open(f).read()
    for blk in re.findall(r'/-.*?-/',txt,re.S):
        cur=None
        for m in re.finditer(r'([A-Za-z_]+\.(?:cpp|hpp))|(?::|, |and |lines? )(\d{2,4})(?:-(\d{2,4}))?',blk):
            if m.group(1):
                cur=m.group(1); 
            elif cur in cov:
                a=int(m.group(2)); b=int(m.group(3) or a)
                if b>=a and b-a<700: cov[cur]|=set(range(a,b+1))
import sys
for k,f in sorted(files.items()):
    L=open(f,errors='replace').read().split('\n')
    n=len(L)
    runs=[];s=None
    for i in range(1,n+2):
        c = i in cov[k] or i>n
        if not c and s is None: s=i
        if c and s is not None:
            if i-s>=12: runs.append((s,i-1))
            s=None
    print(k,n,len([i for i in cov[k] if i<=n]),' '.join('%d-%d'%r for r in runs))
