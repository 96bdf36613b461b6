import json
F='Entry.lean'
ms=[]
def m(d,old,new,claim,f=None):
    f=f or F
    ss=open('/verif/lean/Verif/Model/'+f).read()
    assert ss.count(old)==1,(d,old,ss.count(old))
    ms.append({'file':f,'def':d,'old':old,'new':new,'claim':claim})
m('Inst.applyCuts','rows := I.relax.rows ++ (','rows := (','rows of the problem lost')
m('Inst.applyCuts','(cuts.filter accepts)','(cuts.tail.filter accepts)','first cut forgotten')
m('Inst.applyCuts','⟨c.row, c.lb, c.ub⟩','⟨c.row, none, c.ub⟩','lower sides lost')
m('Inst.applyCuts','⟨c.row, c.lb, c.ub⟩','⟨c.row, c.ub, c.lb⟩','sides swapped')
m('cbcJob','I.applyCuts accepts l','I','cuts not applied')
m('cbcJob','| none => ⟨.cbc, I, []⟩','| none => ⟨.cbc, I.minimise, []⟩','objective changed')
m('cbcSolver','cbcJob accepts p cuts','cbcJob accepts p none','cuts dropped')
m('cbcFile','p.minimise cuts','p cuts','maximization kept')
m('cbcFile','match d.files FILENAME','match d.files _f','the repaired program: claims of ignoring become false')
m('cbcFile','| _ => .exit d','| _ => .ok d (cbcJob accepts .empty cuts)','unreadable file gives an empty problem')
m('fileJob','(cuts.getD []).map','(cuts.getD []).tail.map','first cut lost')
m('fileJob','some ⟨e, p, (','some ⟨e, p.minimise, (','file turned to minimization')
m('fileJob','some ⟨e, p,','some ⟨.cbc, p,','wrong solver')
m('startBB','| e, .file f => runFile (fileJob e env.logs cuts) d f','| e, .file _ => runFile (fileJob e env.logs cuts) d env.filename','name ignored for all solvers')
m('startBB','| e, .solver p => runCopy env.limit env.cands env.zlib (fileJob e env.logs cuts) d p','| e, .solver p => runCopy env.limit env.cands env.zlib (fileJob e env.logs none) d p','cuts dropped with a solver object')
m('startBB','| .cbc, .solver p => cbcSolver env.accepts d p cuts','| .cbc, .solver p => cbcSolver env.accepts (d.put env.filename (.prob p)) p cuts','file overwritten')
F='Status.lean'
m('StatSolver.ask','(if s.isClp then .ok clp else .undef)','.ok clp','other solvers answered')
m('StatSolver.ask','s.cstat = [] ∨ s.rstat = []','s.cstat = []','empty row vector allowed')
m('StatSolver.basicCol','s.cstat c 1','s.cstat c 0','code of basic wrong')
m('StatSolver.freeCol','s.cstat c 0','s.cstat c 4','code of free wrong')
m('StatSolver.ubCol','s.cstat c 2','s.cstat c 3','codes swapped')
m('StatSolver.lbCol','s.cstat c 3','s.cstat c 2','codes swapped')
m('StatSolver.fixedCol','s.cstat c 5','s.cstat c 3','fixed counts as lower')
m('StatSolver.fixedCol','s.info.colStatus c = .isFixed','s.info.colStatus c = .isFree','fixed mistaken for free')
m('StatSolver.basicRow','s.rstat r 1','s.cstat r 1','columns asked for rows')
m('StatSolver.freeRow','s.rstat r 0','s.rstat r 1','code of free wrong')
m('StatSolver.ubRow','isNonBasicUBSlack (s.info','isNonBasicLBSlack (s.info','flip of slacks forgotten')
m('StatSolver.ubRow','s.rstat r 2','s.rstat r 3','flip in the codes')
m('StatSolver.lbRow','s.rstat r 3','s.rstat r 2','flip in the codes')
m('StatSolver.fixedRow','s.rstat r 5','s.rstat r 2','fixed counts as upper')
m('StatSolver.either','var < s.info.numCols','var ≤ s.info.numCols','first slack taken for a column')
m('StatSolver.either','row s (var - s.info.numCols)','row s var','row index not shifted')
m('StatSolver.lbVar','StatSolver.lbCol StatSolver.lbRow','StatSolver.lbCol StatSolver.ubRow','slack at the other bound')
m('StatSolver.freeVar','StatSolver.freeCol StatSolver.freeRow','StatSolver.freeCol StatSolver.fixedRow','free and fixed mixed')
m('StatSolver.fixedVar','StatSolver.fixedCol StatSolver.fixedRow','StatSolver.fixedCol StatSolver.freeRow','free and fixed mixed')
m('StatSolver.rayVar','Res.ok (!b)','Res.ok b','rays are the basic variables')
json.dump(ms,open('m24.json','w'),ensure_ascii=False)
print(len(ms))
