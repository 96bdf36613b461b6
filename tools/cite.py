import re,glob,os
os.chdir('/verif/lean')
bad=0;tot=0
for f in sorted(glob.glob('Verif/Model/*.lean')):
    s=open(f).read()
    for m in re.finditer(r'/--(.*?)-/',s,re.S):
        c=m.group(1)
        for n in re.finditer(r'`([A-Za-z_:~]+)(?:\([^`]*)?`[^`]{0,60}?\(((?:src|include)/[\w/\.]+):(\d+)(?:-(\d+))?',c,re.S):
            name=n.group(1).split('::')[-1]; path='/repo/'+n.group(2); lo=int(n.group(3)); hi=int(n.group(4) or lo)
            tot+=1
            try: L=open(path,errors='replace').read().split('\n')
            except Exception as e: print(f,'NOFILE',path); continue
            if hi>len(L): print(f,'RANGE',name,n.group(2),lo,hi,len(L)); bad+=1; continue
            txt='\n'.join(L[max(0,lo-3):hi+2])
            if name not in txt:
                where=[i+1 for i,l in enumerate(L) if name in l][:8]
                print(f.split('/')[-1],name,n.group(2),lo,hi,'found at',where); bad+=1
print(bad,tot)
