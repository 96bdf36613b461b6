import json
F='TmpFile.lean'
ms=[]
def m(d,old,new,claim,f=None):
    f=f or F
    ss=open('/verif/lean/Verif/Model/'+f).read()
    assert ss.count(old)==1,(d,old,ss.count(old))
    ms.append({'file':f,'def':d,'old':old,'new':new,'claim':claim})
m('mkstemp','if limit ≤ d.fds then none','if limit < d.fds then none','one descriptor more than allowed')
m('mkstemp','| some _ => mkstemp limit d ss\n      | none => some','| some _ => some (tmpStem ++ s, d)\n      | none => some','an existing name is taken')
m('mkstemp','with fds := d.fds + 1 })','with fds := d.fds })','the descriptor is closed: the leak theorems are false')
m('createTmpFilename','(r.1 ++ ext, r.2)','(r.1, r.2)','the extension is not added')
m('writeMps','n ++ ".mps".toList ++ (if zlib then ".gz".toList else [])','n ++ (if zlib then ".gz".toList else [])','the file that is read is not the one written')
m('tmpCopyOsi','| some (n, d) => .ok (writeMps zlib d n p) (n ++ mpsGz)','| some (n, d) => .ok (writeMps zlib d n p) n','the driver reads the empty file')
m('tmpCopyOsi','else .ok (writeMps zlib d name p) (name ++ mpsGz)','else .ok (writeMps zlib d name p) name','given name without extension')
m('withExt','else if name.length < ext.length then none','else if name.length ≤ ext.length then none','a name of seven characters ends the process')
m('withExt','if name.drop (name.length - ext.length) = ext then some name','if name.drop (name.length - ext.length) = ext then some (name ++ ext)','the extension is added twice')
m('withExt','else some (name ++ ext)','else some name','the extension is not added')
m('tmpCopyModel','if caught then .exit d else .abort d','if caught then .abort d else .exit d','the two solvers swapped')
m('tmpCopyModel','| some n => .ok (d.put n (.prob p)) n','| some n => .ok (d.put name (.prob p)) n','written without the extension')
m('runFile','let d := (s.writes p).foldl (fun d w => d.put w.1 w.2) d\n','let d := (s.writes p).foldl (fun d w => d.put w.1 w.2) (d.put n .empty)\n','the solver damages its input: the copy of a failed run is lost')
m('runCopy','.ok (d.del n) r','.ok d r','the copy is not removed')
m('runCopy','.ok (d.del n) r','.ok (d.del (n.take 17)) r','the wrong file is removed')
m('runCopies','.ok d (r :: rs)','.ok d rs','first result lost')
m('TProc.step','| some _ => (q, d)\n    | none => ({ q','| some _ => ({ q with phase := .named (tmpStem ++ s) }, d)\n    | none => ({ q','a name in use is taken: processes read each other\'s problems')
m('TProc.step','phase := .idle }, fun m => if m = n ++ mpsGz then none else d m)','phase := .idle }, fun m => if m = n ∨ m = n ++ mpsGz then none else d m)','removing the base file too: leak gone (claims of several processes stay true)')
m('TProc.step','phase := .idle }, fun m => if m = n ++ mpsGz then none else d m)','phase := .idle }, fun m => if m = n then none else d m)','the copy stays')
m('TProc.step','fun m => if m = tmpStem ++ s then some .empty else d m)','d)','the base file is not created: two processes get one name')
m('TProc.step','fun m => if m = n ++ mpsGz then some (.prob p) else d m)','fun m => if m = tmpStem ++ mpsGz then some (.prob p) else d m)','all processes write the same copy')
F='PrlpSolve.lean'
m('PrlpImpl.within','p.setSeconds t (p.resetIter s) }','p.setSeconds t s }','iterations not reset in the check')
m('prlpNanRetry','if !(p.base.isPrimalInf s) && p.nanObj s then','if p.nanObj s then','an infeasible LP is solved again')
m('prlpNanRetry','prlpCheck p t (p.base.initialSolve (p.setSeconds t (p.resetIter s)))\n  else .ok s','prlpCheck p t s\n  else .ok s','not solved from scratch after NaN')
m('prlpInfRetry','if p.base.isOptimal s && (!(p.nanObj s)','if (!(p.nanObj s)','solved again although not optimal')
m('prlpInfRetry','isNegInfinity (p.base.objValue s) (-INF)','isNegInfinity (p.base.objValue s) INF','wrong sign of infinity')
m('prlpInfRetry','p.base.initialSolve (p.setSeconds t s)','p.base.initialSolve s','time limit dropped')
m('prlpResolve','(prlpNanRetry p t s).bind fun s => prlpInfRetry p INF t s','prlpNanRetry p t s','second retry dropped')
m('prlpResolve','p.base.resolve (p.setSeconds t (p.resetIter s))','p.base.resolve (p.resetIter s)','time limit not set')
m('prlpCode','if p.base.isOptimal s then none\n','if p.base.isDualInf s then none\n','unbounded reported as success')
m('prlpCode','else if p.base.isIterLimit s then some .ITERATION_LIMIT\n  else if p.base.hitTime s then some .TIME_LIMIT\n','else if p.base.isIterLimit s then some .TIME_LIMIT\n  else if p.base.hitTime s then some .ITERATION_LIMIT\n','two codes swapped')
m('prlpCode','else if p.abandoned s then some .ABANDONED\n','','abandoned reported as unknown')
m('prlpStatus','else if p.abandoned s then .abandoned\n','else if p.abandoned s then .other\n','status and code differ')
m('setTimeLimit','{ c with seconds := t }','{ c with seconds := -t }','wrong time limit')
m('setTimeLimit','| .other .. => .undef\n\n/-- `hitTimeLimit`','| .other l a b => .ok (.other l a b)\n\n/-- `hitTimeLimit`','another class of solver accepted')
m('hitTimeLimit','.ok (hit c)','.ok (!hit c)','negated')
m('setLPSolverParameters','{ c with osiLog := 0, clpLog := 0 }','{ c with osiLog := 0 }','model still prints')
m('setLPSolverParameters','if verbosity = 0 then { c','if verbosity ≠ 0 then { c','condition negated')
m('setupClpForStrongBranching','special := 16','special := c.special + 16','options added instead of replaced')
m('setupClpForCbc','presolveInitial := false, presolveResolve := false','presolveInitial := false','presolve stays on')
m('setupClpForCbc','if c.moreSpecial + 256 > 2 ^ 31 - 1 then','if c.moreSpecial + 256 > 2 ^ 31 then','overflow at the boundary missed')
m('setupClpForCbc','c.moreSpecial + 256 })','c.moreSpecial + 128 })','wrong option')
F='Float.lean'
m('rne','if q - ⌊q⌋ < 1 / 2 then ⌊q⌋\n','if q - ⌊q⌋ ≤ 1 / 2 then ⌊q⌋\n','ties down')
m('rne','else if ⌊q⌋ % 2 = 0 then','else if ⌊q⌋ % 2 = 1 then','ties to odd')
m('rne','else if 1 / 2 < q - ⌊q⌋ then ⌊q⌋ + 1','else if 1 / 2 < q - ⌊q⌋ then ⌊q⌋','truncation')
m('fl','else (rne (x / 2 ^ (Int.log 2 |x| + 1 - p)) : ℚ) * 2 ^ (Int.log 2 |x| + 1 - p)','else (rne (x / 2 ^ (Int.log 2 |x| + 2 - p)) : ℚ) * 2 ^ (Int.log 2 |x| + 2 - p)','one digit less')
m('matched','else if x.1 < y.1 then matched v (y :: w)','else if y.1 < x.1 then matched v (y :: w)','wrong vector advanced')
m('matched','(x.2, y.2) :: matched v w','(x.2, x.2) :: matched v w','element squared')
F='VecOps.lean'
m('dotStep','rnd (rnd (x * y) - s.comp)','rnd (rnd (x * y) + s.comp)','compensation with the wrong sign')
m('dotStep','rnd (rnd (nextacc - s.acc) - currterm) else','rnd (rnd (nextacc - s.acc) + currterm) else','compensation computed with the wrong sign')
m('dotStep','rnd (rnd (nextacc - s.acc) - currterm) else','rnd (rnd (nextacc - s.acc) - rnd (x * y)) else','compensation forgets the previous one')
m('dotStep','if kahan then rnd','if !kahan then rnd','the two versions swapped')
json.dump(ms,open('m17.json','w'))
print(len(ms))
