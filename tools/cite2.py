import re,glob,os,sys
os.chdir('/verif/lean')
for f in sys.argv[1:]:
    f='Verif/Model/%s.lean'%f
    s=open(f).read()
    print('##',f)
    for m in re.finditer(r'/--(.*?)-/\s*(?:@\[.*?\]\s*)?(?:noncomputable )?(?:def|structure|inductive|abbrev|class|instance)?\s*([\w\.\']*)',s,re.S):
        c=m.group(1); d=m.group(2); path=None
        for n in re.finditer(r'((?:src|include)/[\w/\.]+)?:(\d+)(?:-(\d+))?((?:, ?\d+(?:-\d+)?)*)',c):
            if n.group(1): path=n.group(1)
            if not path: continue
            rs=[(n.group(2),n.group(3))]+[tuple((x.strip().split('-')+[None])[:2]) for x in n.group(4).split(',') if x.strip()]
            L=open('/repo/'+path,errors='replace').read().split('\n')
            for lo,hi in rs:
                lo=int(lo); hi=int(hi or lo)
                if hi>len(L): print('RANGE',d,path,lo,hi); continue
                t=lambda k: L[k-1].strip()[:52]
                print(f"{d[:22]}|{path.split('/')[-1][:14]}:{lo}-{hi}|{t(lo)} || {t(hi) if hi!=lo else ''}")
