import re,sys
# usage: fixc.py <<< lines "Model def old new"  (old like 287-304)
import os
os.chdir('/verif/lean/Verif/Model')
for line in sys.stdin:
    p=line.split()
    if len(p)!=4: 
        if p: print('??',line.strip())
        continue
    mod,d,old,new=p
    f=mod+'.lean'; s=open(f).read()
    m=None
    for x in re.finditer(r'/--((?:(?!-/).)*)-/\s*(?:@\[.*?\]\s*)?(?:noncomputable )?(?:def|structure|inductive|abbrev|class|instance)\s+([\w\.\']*)',s,re.S):
        if x.group(2)==d: m=x;break
    if not m: print('NODEF',line.strip()); continue
    c=m.group(1)
    c2,n=re.subn(r'(?<![\d-])'+re.escape(old)+r'(?![\d-])',new,c,count=1)
    if n==0: print('NOCITE',line.strip(),'|',c.strip()[:150].replace('\n',' ')); continue
    s=s[:m.start(1)]+c2+s[m.end(1):]
    open(f,'w').write(s)
