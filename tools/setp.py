# helper: add properties (list P of tuples) and edit statements (dict S)
import json,sys
exec(open(sys.argv[1]).read())
L=[json.loads(l) for l in open('/verif/properties.jsonl')]
have={x['id'] for x in L}
for x in L:
    if x['id'] in globals().get('S',{}): x['statement']=S[x['id']]
for i,t,s,q,w,a in P:
    if i in have: continue
    L.append(dict(id=i,title=t,statement=s,quantifier=q,why_tests_cant=w,anchors=[dict(file=x,symbols=y) for x,y in a]))
with open('/verif/properties.jsonl','w') as f:
    for x in L: f.write(json.dumps(x)+'\n')
