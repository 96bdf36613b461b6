import json
P=[
("C71","A repeated point-ray LP solution yields no second cut; a new one is tried","If the point-ray LP returns the same solution as the previous objective did (every coordinate within the tolerance), no cut is made and a duplicate is reported; if the solution differs in some coordinate, or there is no previous one, it is converted to a cut and judged on its merits.","all pairs of consecutive LP solutions, all pools","all solutions",[("src/cut/PRLP.cpp",["PRLP::genCut"])]),
("C72","Collected cuts are pairwise different and not nearly parallel","The cuts collected in one generation are pairwise different (no two are positive multiples of each other), and when a minimal orthogonality is requested no cut in the pool is closer than that to another; a cut is only replaced by one that is sparser or more effective. (Orthogonality fails after a replacement; cuts from root changes are not compared.)","all histories of objectives and LP answers","all histories",[("src/cut/PRLP.cpp",["PRLP::genCutHelper"]),("src/cut/CutHelper.cpp",["howDuplicate"]),("src/cut/CglVPC.cpp",["CglVPC::addCut"])]),
("C73","A cut stronger than a collected parallel one is not lost","If a newly found cut is parallel to one already collected but has a stronger right-hand side, the stronger one ends up in the pool. (Violated: it is counted as duplicate and dropped.)","all pools and new cuts","all pairs of cuts",[("src/cut/PRLP.cpp",["PRLP::genCutHelper"]),("src/cut/CutHelper.cpp",["howDuplicate"])]),
]
have={json.loads(l)['id'] for l in open('/verif/properties.jsonl')}
with open('/verif/properties.jsonl','a') as f:
    for i,t,s,q,w,a in P:
        if i in have: continue
        f.write(json.dumps(dict(id=i,title=t,statement=s,quantifier=q,why_tests_cant=w,anchors=[dict(file=x,symbols=y) for x,y in a]))+'\n')
