from fractions import Fraction as F
import random,math
def fl(p,x):
    if x==0: return F(0)
    a=abs(x); e=0
    while F(2)**e>a: e-=1
    while F(2)**(e+1)<=a: e+=1
    e=e+1-p
    q=x/F(2)**e; f=math.floor(q); r=q-f
    if r<F(1,2): n=f
    elif r>F(1,2): n=f+1
    else: n=f if f%2==0 else f+1
    return n*F(2)**e
def run(l,p):
    s=c=F(0)
    for x in l:
        y=fl(p,fl(p,x)-c); t=fl(p,s+y); c=fl(p,fl(p,t-s)-y); s=t
    return s
import itertools
for p in (2,3,4):
  vals=[F(k) for k in range(-15,16)]
  best=None
  for n in (2,3):
    for l in itertools.product([v for v in vals if fl(p,v)==v and v!=0],repeat=n):
      for pos in range(1,n+1):
        m=list(l[:pos])+[F(0)]+list(l[pos:])
        if run(m,p)!=run(l,p): best=(l,pos,run(l,p),run(m,p)); break
      if best: break
    if best: break
  print(p,best)
