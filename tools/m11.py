import json
M=[]
def a(f,d,o,n,c): M.append(dict(file=f,**{'def':d},old=o,new=n,claim=c))
N='Names.lean'
a(N,'intStr',"if n < 0 then '-' :: natStr n.natAbs else natStr n.natAbs","natStr n.natAbs",'C116: sign of the right-hand side')
a(N,'truncInt','≤ (if 0 ≤ q then ⌊q⌋ else ⌈q⌉) ∧ (if 0 ≤ q then ⌊q⌋ else ⌈q⌉) < 2 ^ 31 then\n    .ok (if 0 ≤ q then ⌊q⌋ else ⌈q⌉)','≤ (if 0 ≤ q then ⌊q⌋ else ⌈q⌉) ∧ (if 0 ≤ q then ⌊q⌋ else ⌈q⌉) < 2 ^ 31 then\n    .ok ⌊q⌋','C116: floor instead of truncation')
a(N,'cgsTerm','name ++ " V ".toList) ++ ("(".toList','name) ++ ("(".toList','C116: separator of terms missing')
a(N,'cgsTerm','++ term ++ ")".toList)','++ term)','C116: term not closed')
a(N,'nearInt','decide (|q - ⌊q⌋| < defEps) || ','','C116: value just above an integer')
a(N,'numText','.ok (intStr n) else .ok (fmt q)','.ok (intStr n) else .ok []','C116: fractional numbers left out')
a(N,'factorText','if |(|c| - 1)| < defEps then .ok []','if |(c - 1)| < defEps then .ok []','C116: factor -1')
a(N,'summandText','if 0 < t.2 then "+".toList else "-".toList','if 0 < t.2 then "".toList else "-".toList','C116: sign of first summand')
a(N,'summandText','if 0 < t.2 then "+".toList else "-".toList','if 0 < t.2 then "-".toList else "+".toList','C116: signs swapped')
a(N,'sumText','.ok (a ++ b)\n','.ok (b ++ a)\n','C116: order of summands')
a(N,'ineqText','++ " >= ".toList ++ b','++ " <= ".toList ++ b','C116: direction')
a(N,'cgsOpen','name.dropLast ++ "; ".toList','name ++ "; ".toList','C116: bracket not removed')
a(N,'cgsOpen','(if append then [] else "(".toList)','"(".toList','C116: bracket opened twice')
a(N,'cgsLoop','cgsLoop fmt true is n','cgsLoop fmt false is n','C116: later inequalities as new terms')
a(N,'cgsIneqs','(cgsOpen name append)).bind fun n => .ok (n ++ ")".toList)','(cgsOpen name append)).bind fun n => .ok n','C116: group not closed')
a(N,'splitName','" <= ".toList ++ intStr f))','" <= ".toList ++ intStr c))','C116: split bound')
a(N,'splitName','if var < 0 then .ok name','if var ≤ 0 then .ok name','C116: variable 0')
a(N,'NBound.row','(if b.lower then 1 else -1) * b.value)','b.value)','C116: rhs of upper bounds')
a(N,'NBound.row','[(b.var, if b.lower then 1 else -1)]','[(b.var, 1)]','C116: coefficient of upper bounds')
a(N,'termName','if parents.length > 0 then cgsIneqs','if parents.length > 1 then cgsIneqs','C116: single parent bound left out')
a(N,'termName','(parents.map NBound.row) true else','(parents.map NBound.row) false else','C116: parents as own term')
a(N,'treeName','if intSol then cgsTerm [] "feasSol0".toList else []','[]','C116: integer solution not named')
T='TreePrep.lean'
a(T,'branchOf','if branchStrategy = 1 then some .dynamic','if branchStrategy = 1 then some .strong','C117')
a(T,'branchOf','else if branchStrategy = 3 then none\n','','C117: third strategy')
a(T,'compareOf','if compareStrategy = 1 then .bfs','if compareStrategy = 1 then .depth','C117')
a(T,'compareOf','else if compareStrategy = 4 then .objective','else if compareStrategy = 5 then .objective','C117')
a(T,'setIfNonneg','if n ≥ 0 then','if n > 0 then','C117: zero strong candidates')
a(T,'treeSettings','strong := setIfNonneg numStrong\n','strong := setIfNonneg numTrust\n','C117: swapped')
a(T,'treeSettings','{ method := choose,','{ method := branch,','C117: method')
a(T,'treeSettings','maxSeconds := maxTime','maxSeconds := 0','C117: time')
a(T,'treeSettings','cutPassesRoot := 0','cutPassesRoot := 1','C117: cuts in the tree')
a(T,'treeSettingsOf','treeSettings s.1 s.2.1 s.2.2','treeSettings s.2.1 s.1 s.2.2','C117: digits swapped')
a(T,'prepareTree','if disjTerms < 2 then','if disjTerms < 1 then','C45 / C05: one term')
a(T,'prepareTree','(run.saves.getLast?.map SaveSt.D).getD D','(run.saves.head?.map SaveSt.D).getD D','C45: first save kept')
a(T,'prepareTree','(run.saves.getLast?.map SaveSt.D).getD D','(run.saves.getLast?.map SaveSt.D).getD {}','C45: reset when nothing saved')
a(T,'prepareTrees','fun x => prepareTrees disjTerms keep x.2 rs','fun _ => prepareTrees disjTerms keep D rs','C45: old disjunction')
B='BetterBranch.lean'
a(B,'wayBefore','if c.numUp < bestNumber then 1\n','if c.numUp ≤ bestNumber then 1\n','C118: ties')
a(B,'wayBefore','else if c.numUp = bestNumber ∧ c.up < crit then 1 else 0','else 0','C118: ties by change up')
a(B,'wayBefore','if c.numDown < bestNumber then -1','if c.numDown < bestNumber then 1','C118: direction')
a(B,'wayBefore','else if c.numUp < bestNumber ∨ (c.numUp = bestNumber','else if (c.numUp = bestNumber','C118: smaller number')
a(B,'wayBefore','min c.up c.down < crit) then\n    if c.up ≤ c.down then 1 else -1','min c.up c.down < crit) then\n    if c.up ≤ c.down then -1 else 1','C118: even way')
a(B,'wayAfter','if c.up > crit then 1','if c.up ≥ crit then 1','C118: first of ties')
a(B,'wayAfter','if c.up ≤ c.down then (if','if c.up ≥ c.down then (if','C118: max instead of min')
a(B,'wayAfter','if c.down > crit then -1','if c.down > crit then 1','C118: direction')
a(B,'BrState.start','{ s with crit := -1 }','{ s with crit := 0 }','C118: zero change never chosen')
a(B,'BrState.start','numUp := coinIntMax, numDown := coinIntMax','numUp := coinIntMax','C118: start value')
a(B,'BrState.way','(min s.numUp s.numDown)','(max s.numUp s.numDown)','C118: best number')
a(B,'betterBranch','{ crit := min c.up c.down','{ crit := max c.up c.down','C118: criterion')
a(B,'betterBranch','best := some i }','best := s.best }','C118: object not kept')
a(B,'betterBranch','if c.preferred ≠ 0 then c.preferred else w','w','C118: preferred way')
a(B,'betterFrom','if r.2 ≠ 0 then r else (r.1, s.2)','r','C118: way lost')
a(B,'betterFrom','betterFrom before (i + 1) cs','betterFrom before i cs','C118: index')
# reruns
m10=[json.loads(l) for l in open('m10.json').read().split('\x00')][0]
for d,w in [('stoi','range below'),('gomoryRound','other values'),('boundStop','not optimal'),('OsiRow.rhs','rhs is'),('withUserCuts','not announced'),('grbReport','bounds without'),('cpxLate','late bound'),('cpxEventsOf','events')]:
    x=[m for m in m10 if m['def']==d and w in m['claim'] and '[rerun]' not in m['claim']]
    for m in x: M.append(dict(m,claim=m['claim']+' [rerun]'))
S='SetupList.lean'
a(S,'flushFrom','useful := s.useful.set j 0\n','useful := s.useful.set j (s.useful.getD j 0)\n','C108: old value stays')
json.dump(M,open('m11.json','w'))
import collections
for m in M:
    s=open('/verif/lean/Verif/Model/'+m['file']).read()
    if s.count(m['old'])!=1: print(m['def'],s.count(m['old']),m['old'])
print(len(M))
