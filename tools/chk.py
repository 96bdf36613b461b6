import json,sys
for n in range(1,7):
    for x in json.load(open(f'/tmp/w/m{n}.json')):
        c=open('/verif/lean/Verif/Model/'+x['file']).read().count(x['old'])
        if c!=1: print(n,x['file'],x['def'],c,x['old'][:60])
