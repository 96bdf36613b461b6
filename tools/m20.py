import json
F='TreePlot.lean'
ms=[]
def m(d,old,new,claim,f=None):
    f=f or F
    ss=open('/verif/lean/Verif/Model/'+f).read()
    assert ss.count(old)==1,(d,old,ss.count(old))
    ms.append({'file':f,'def':d,'old':old,'new':new,'claim':claim})
m('pTake','[⟨n, n, (i : ℤ), s.count + 1, b, 0','[⟨n, n, (i : ℤ), s.count, b, 0','kept child gets the last number again')
m('pTake','(i : ℤ), s.count + 1, -1, 0, -2','(i : ℤ), s.count, -1, 0, -2','pruned child gets the last number again')
m('pTake','[⟨n, n, (i : ℤ), s.count + 1, b','[⟨n, n, (p.number : ℤ), s.count + 1, b','parent given by its number instead of its entry')
m('pTake','active := rest, count := s.count + 1','active := rest, count := s.count','pruned nodes are not counted')
m('pTake','if p.bi = 0 then','if p.bi = 1 then','second entry for the wrong branch')
m('pTake','orig := i, bi := 1','orig := i, bi := 0','branch index of the second entry not advanced')
m('pTake','orig := i, bi := 1','orig := s.stats.length, bi := 1','second entry looks like a first entry')
m('exploredEdges','if e.orig ≠ e.id ∨ e.parent < 0 then exploredEdges all l','if e.parent < 0 then exploredEdges all l','second entries are drawn too')
m('exploredEdges','.ok (⟨p.number, e.number, p.bvar, 0⟩','.ok (⟨p.id, e.number, p.bvar, 0⟩','entry index instead of the number')
m('exploredEdges','.ok (⟨p.number, e.number, p.bvar, 0⟩','.ok (⟨p.number, e.number, e.bvar, 0⟩','label is the variable of the child')
m('prunedEdges','.ok (⟨p.number, e.number, p.bvar, 1⟩','.ok (⟨p.number, e.number, e.bvar, 1⟩','label of pruned child is -1')
m('openOf','⟨p.number, m + 1, p.bvar, 2⟩ :: openOf p k (m + 1)','⟨p.number, m + 1, p.bvar, 2⟩ :: openOf p k m','both open children get the same number')
m('openOf','⟨p.number, m + 1, p.bvar, 2⟩','⟨p.number, m, p.bvar, 2⟩','off by one: first open child has the number of the last node')
m('openEdges','(openEdges all l (m + (2 - p.bi)))','(openEdges all l (m + 1))','counter advanced by one per node')
m('openEdges','.ok (openOf p (2 - p.bi) m ++ r)','.ok (openOf p 1 m ++ r)','only one open child per node')
m('plotEdges','(openEdges s.stats onTree s.count)','(openEdges s.stats onTree (s.count + 1))','numbering of open nodes has a gap')
m('plotEdges','.ok (a ++ b ++ c)','.ok (a ++ c)','pruned nodes not drawn')
m('setChild','if c.2 ≥ 0 then .ok','if c.2 ≥ 1 then .ok','an explored child is overwritten')
m('setChild','(row ++ [(child, loc)])','(row)','a child whose place is taken is dropped')
m('setVar','if node < t.vars.length then','if node ≤ t.vars.length then','write past the end is not noticed')
m('addSB','(setChild t 4 node 1 (n + t.sb : ℕ))','(setChild t 4 node 1 (n : ℕ))','all solutions of strong branching get the same number')
m('addSB','sb := t.sb + 1','sb := t.sb','solutions of strong branching not counted')
m('addSB','vars := t.vars ++ [-1]','vars := t.vars','no variable entry for the solution')
m('addSB','(n + t.sb + 1 - t.rows.length)','(n + t.sb - t.rows.length)','table not enlarged')
m('tikzExplored','(if e.found && same e.obj e.intObj then 1 else 0)','(if e.found then 1 else 0)','node with a solution of strong branching marked integer')
m('tikzExplored','(if e.found && !same e.obj e.intObj then addSB','(if e.found then addSB','integer nodes get an extra child')
m('tikzExplored','fun t => (setVar t e.number p.bvar).bind fun t =>\n      (if e.found','fun t => (setVar t e.number e.bvar).bind fun t =>\n      (if e.found','label is the variable of the child')
m('tikzOpenOf','tikzOpenOf p k (b + 1) (m + 1)','tikzOpenOf p k (b + 1) m','both open children get the same number')
m('tikzOpen','tikzOpen all l (m + (2 - p.bi)) t','tikzOpen all l (m + 2) t','counter advanced by two for every node')
m('tikzPruned','(if e.obj = e.intObj then 1 else 0) else 2)','(if e.obj = e.intObj then 1 else 0) else 0)','infeasible nodes not marked')
m('tikzPruned','if c0.1 ≠ -1 ∨ c1.1 ≠ -1 then .exit','if c0.1 = -1 ∨ c1.1 ≠ -1 then .exit','assertion inverted')
m('tikzPruned','decide (e.obj = e.intObj) then addSB n t e.number','decide (e.obj = e.intObj) then addSB n t p.number','solution of strong branching drawn at the parent')
m('tikzTable','vars := -1 :: List.replicate s.count 0','vars := List.replicate s.count 0','array of variables too short')
m('tikzTable','(tikzOpen s.stats onTree n t)','(tikzOpen s.stats onTree (n - 1) t)','open nodes overwrite the last node')
m('tikzOpenOf','vars := t.vars ++ [p.bvar]','vars := t.vars ++ [-1]','open nodes not labelled')
m('pTake','way := if p.way ≤ 0 then 1 else 0','way := p.way','second entry keeps the way of the first')
m('tikzOpenOf','(if up then 2 else 0)','(if up then 0 else 2)','open children on the wrong side')
json.dump(ms,open('m20.json','w')); print(len(ms))
