import json
I='Iface.lean';C='CpxData.lean'
L=[
(I,'ifaceLoad','{ o with solver := E.flip si }','{ o with solver := si }','loading does not turn a maximization into a minimization'),
(I,'ifaceLoad','{ o with solver := E.flip si }','{ o with solver := E.flip o.solver }','loading keeps the old problem'),
(I,'ifaceLoad','{ o with solver := E.flip si }','{ o with solver := E.flip si, cuts := [] }','loading empties the collection (fix)'),
(I,'keepDisj','  | some d => some d\n  | none => old','  | some d => some d\n  | none => none','the disjunction is lost when the generator has none'),
(I,'keepDisj','  | some d => some d\n  | none => old','  | some _ => old\n  | none => old','the new disjunction is not taken over'),
(I,'ifaceGenerate','if !(E.impl.isOptimal o.solver) then .ok (o, .threw)','if (E.impl.isOptimal o.solver) then .ok (o, .threw)','generation refuses an optimal LP'),
(I,'ifaceGenerate','⟨r.1, r.2.1, keepDisj r.2.2 o.disj⟩','⟨r.1, o.cuts, keepDisj r.2.2 o.disj⟩','generated cuts are lost'),
(I,'ifaceGenerate','⟨r.1, r.2.1, keepDisj r.2.2 o.disj⟩','⟨o.solver, r.2.1, keepDisj r.2.2 o.disj⟩','solver after generation not kept'),
(I,'ifaceGenerate','.ok (o, .threw)','.ok ({ o with cuts := [] }, .threw)','a refused call changes the object'),
(I,'ifaceApply','{ o with solver := r.2.1, cuts := r.2.2 }','{ o with solver := r.2.1 }','the collection is never emptied'),
(I,'ifaceApply','{ o with solver := r.2.1, cuts := r.2.2 }','{ o with cuts := r.2.2 }','the cuts are not applied'),
(I,'ifaceApply','.applied r.1)','.applied (r.1 + 1))','wrong number of applied cuts reported'),
(I,'ifaceApply','E.numApplied mask clear o.cuts','E.numApplied mask (!clear) o.cuts','clear flag inverted'),
(I,'ifaceApply','E.numApplied mask clear o.cuts','E.numApplied none clear o.cuts','mask ignored'),
(I,'ifaceStep','| .solve => .ok ({ o with solver := E.impl.initialSolve o.solver }, .done)','| .solve => .ok (o, .done)','solve does nothing'),
(I,'ifaceStep','| .resolve => .ok ({ o with solver := E.impl.resolve o.solver }, .done)','| .resolve => .ok ({ o with solver := E.impl.resolve o.solver, cuts := [] }, .done)','resolve loses the cuts'),
(I,'ifaceRun','.ok (q.1, r.2 :: q.2)','.ok (r.1, r.2 :: q.2)','only the first call has an effect'),
(I,'checkStatus','if n < 0 then .exit else .read s','if n ≤ 0 then .exit else .read s','a file read without errors is refused'),
(I,'checkStatus','if n < 0 then .exit else .read s','if n ≠ 0 then .exit else .read s','files with errors are refused (fix)'),
(I,'checkStatus','if n < 0 then .exit else .read s','if n > 0 then .exit else .read s','sign of the status'),
(I,'checkStatus','if caught then .exit else .thrown','if caught then .thrown else .exit','guard on the wrong reader'),
(I,'readByExt','if ext = "lp".toList then checkStatus false R.lp','if ext = "lp".toList then checkStatus false R.mps','lp files read by the mps reader'),
(I,'readByExt','else if ext = "mps".toList then checkStatus false R.mps','else if ext = "mps".toList then checkStatus true R.mps','mps reader guarded'),
(I,'readByExt','else checkStatus true R.mps','else checkStatus true R.lp','unknown extension read as lp'),
(I,'ifaceReadFile','(parseFilename ⟨[], [], []⟩ name).2.ext','(parseFilename ⟨[], [], []⟩ name).2.name','reader chosen by the name'),
(I,'initReadFile','!(fexists name) && !(fexists (name ++ ".gz".toList)) && !(fexists (name ++ ".bz2".toList))','!(fexists name)','archived files are not looked for'),
(I,'initReadFile','!(fexists name) && !(fexists (name ++ ".gz".toList)) && !(fexists (name ++ ".bz2".toList))','!(fexists name) && !(fexists (name ++ ".gz".toList))','bz2 archives are not looked for'),
(I,'initReadFile','name).1 ≠ 0 then .exit','name).1 = 0 then .exit','unparsed names are accepted'),
(C,'CpxProb.nz','.take p.cols.length).sum','.take (p.cols.length - 1)).sum','last column not counted'),
(C,'CpxProb.beg','.take j).sum','.take (j + 1)).sum','column start off by one'),
(C,'cpxColEnd','if j < p.cols.length - 1 then','if j < p.cols.length then','end of the last column read outside'),
(C,'cpxColEnd','p.beg (j + 1) else p.nz','p.beg j else p.nz','columns copied empty'),
(C,'copyCpxCol','(acc.1 ++ [acc.2.length], ','(acc.1 ++ [acc.2.length + 1], ','starts shifted'),
(C,'copyCpxCol','.drop (p.beg j)','.drop (p.beg 0)','column start ignored'),
(C,'copyCpxCols','(r.1 ++ [r.2.length], r.2)','(r.1, r.2)','last start not written'),
(C,'cpxRowBounds',"if r.1 = 'G' then some (r.2, dblMax)","if r.1 = 'G' then some (-dblMax, r.2)",'>= rows stored as <='),
(C,'cpxRowBounds',"else if r.1 = 'L' then some (-dblMax, r.2)","else if r.1 = 'L' then some (0, r.2)",'<= rows get a lower bound'),
(C,'cpxRowBounds',"else if r.1 = 'E' then some (r.2, r.2)","else if r.1 = 'E' then some (r.2, dblMax)",'equations stored as >='),
(C,'cpxRowBounds',"  else none","  else some (r.2, r.2)",'ranged rows accepted as equations'),
(C,'cpxTypes','if p.isMip then some c.ctype else none',"if p.isMip then some c.ctype else some 'C'",'pure LPs get types (fix)'),
(C,'cpxWrite','collb := p.cols.map (·.lb)','collb := p.cols.map (·.ub)','bounds swapped'),
(C,'cpxWrite','colub := p.cols.map (·.ub)','colub := p.cols.map (·.lb)','upper bounds lost'),
(C,'cpxWrite','obj := p.cols.map (·.obj)','obj := p.cols.map (·.lb)','objective from bounds'),
(C,'cpxWrite','objsense := p.objsense','objsense := -p.objsense','sense of objective inverted'),
(C,'cpxWrite','objoffset := p.offset','objoffset := -p.offset','objective constant negated'),
(C,'cpxWrite','≠ p.nz then p.rows.map fun _ => none else','= p.nz then p.rows.map fun _ => none else','row bounds not written'),
(C,'cpxRval','if (copyCpxCols p).2.length ≠ p.nz then 1','if (copyCpxCols p).2.length ≠ p.nz then 0','failure not reported'),
(C,'cpxRval','.any Option.isNone then 1','.any Option.isNone then 0','ranged row not reported'),
(C,'cpxRval','.any Option.isNone then 1\n  else 0','.any Option.isNone then 1\n  else 1','success reported as failure'),
(C,'convertCpx','if p.nz = 0 then (0, none)','if p.nz = 0 then (1, none)','empty problems reported as error (fix)'),
(C,'convertCpx','if p.nz = 0 then (0, none)','if p.nz ≤ 1 then (0, none)','problems with one nonzero lost'),
(C,'cpxVars','⟨d.collb.getD j 0, d.colub.getD j 0, d.obj.getD j 0, t⟩','⟨d.colub.getD j 0, d.collb.getD j 0, d.obj.getD j 0, t⟩','bounds swapped when loading'),
]
json.dump([dict(file=a,**{'def':b},old=c,new=d,claim=e) for a,b,c,d,e in L],open('m13.json','w'))
