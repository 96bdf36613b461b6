import json,glob,sys
for b in sys.argv[1:]:
    for l in open(f'm{b}.out'):
        r=json.loads(l)
        if r['result']!='failed': print(b,r['file'],r['def'],'|',r['old'].replace('\n','\\n')[:110],'=>',r['new'].replace('\n','\\n')[:110],'|',r['claim'],'|',r['result'])
