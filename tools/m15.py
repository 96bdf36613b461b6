import json
A='Angle.lean';H='Handler.lean'
L=[
(A,'Par.mk','if a * b = 0 then .nan else .quot num (a * b)','.quot num (a * b)','zero vectors give a number'),
(A,'Par.mk','.quot num (a * b)','.quot num (a + b)','norms added'),
(A,'Par.mk','else .quot num (a * b)','else .quot |num| (a * b)','absolute value of the product'),
(A,'packedSquares','rowSquares (v.map (·.2))','(v.map fun e => |e.2|).sum','one norm'),
(A,'parallelismPP','(packedSquares v) (packedSquares w)','(packedSquares v) (packedSquares v)','norm of the first vector twice'),
(A,'parallelismPP','dotSparse id true v w','dotSparse id true v v','product with itself'),
(A,'denseSquares','b.length < numElem','b.length ≤ numElem','last element taken for out of range'),
(A,'denseSquares','rowSquares (b.take numElem)','rowSquares b','norm over the whole array'),
(A,'parallelismPD','some (Par.mk s (packedSquares v) n2)','some (Par.mk s n2 n2)','norm of the packed vector not used'),
(A,'parallelismDD','some (Par.mk s n1 n2)','some (Par.mk s n1 n1)','norm of the second array not used'),
(A,'parallelismDD','denseSquares numElem a, denseSquares','denseSquares (numElem - 1) a, denseSquares','norm one element short'),
(A,'signedSq','num * |num| / sq','num * num / sq','sign lost'),
(A,'orthoLess','signedSq m t < signedSq n s','signedSq n s < signedSq m t','largest orthogonality kept'),
(A,'orthoLess','decide (signedSq m t < signedSq n s)','decide (signedSq m t ≤ signedSq n s)','last instead of first minimum'),
(A,'orthoBelow','signedSq (1 - theta) 1 < signedSq n s','signedSq theta 1 < signedSq n s','threshold on the parallelism'),
(A,'orthoBelow','signedSq (1 - theta) 1 < signedSq n s','signedSq (1 - theta) 1 ≤ signedSq n s','cuts exactly at the threshold turned down'),
(A,'orthoBelow','def orthoBelow (theta : ℚ) : Par → Bool\n  | .nan => false','def orthoBelow (theta : ℚ) : Par → Bool\n  | .nan => true','NaN counts as parallel'),
(A,'parOpposite','.quot (-1) 1','.quot 1 1','smallest orthogonality starts at 0'),
(A,'howDupAngleLoop','decide (MIN_ORTHO > 0) && orthoLess p mp','orthoLess p mp','orthogonality computed even if not wanted'),
(A,'howDupAngleLoop','let p := parallelismPP tmp.row c.row','let p := parallelismPP c.row c.row','cut compared with itself'),
(A,'howDupAngleLoop','howDupAngleLoop MIN_ORTHO EPS tmp (i + 1) cs mi\' mp\'','howDupAngleLoop MIN_ORTHO EPS tmp (i + 1) cs mi\' mp','minimum not kept'),
(A,'howDupAngleLoop','let mi\' := if upd then some i else mi','let mi\' := if upd then some (i + 1) else mi','index off by one'),
(A,'howDupAngleLoop','if d ≠ 2 then','if d = 2 then','duplicates and others swapped'),
(A,'howDupAngle','(cuts.drop startIndex)','cuts','start not respected'),
(A,'orthoKey','| .nan => 2','| .nan => 0','NaN taken for parallel in the generator'),
(A,'orthoKey','1 - signedSq n s','1 - |signedSq n s|','opposite cuts taken for parallel'),
(A,'orthoKeyBound','1 - signedSq (1 - theta) 1','theta','threshold not transformed'),
(A,'stationary','    | .nan => false','    | .nan => true','stationary at the origin'),
(A,'stationary','signedSq (1 - defEps) 1 < signedSq n s','signedSq (1 + defEps) 1 < signedSq n s','tolerance on the wrong side'),
(A,'stationary','(parallelismDD numElem prev cur)','(parallelismDD numElem cur cur)','current point compared with itself'),
(H,'HandlerM.new','⟨{}, none⟩','⟨{}, some 0⟩','pointer not initialized'),
(H,'HandlerM.newFor','keepPrunedNodes := keepPrunedNodes','keepPrunedNodes := false','option not set'),
(H,'HandlerM.newFor','maxTime := maxTime','maxTime := 0','time limit not set'),
(H,'HandlerM.newFor','owner := some owner','owner := none','disjunction not set'),
(H,'HandlerM.initFrom','| none => .undef\n  | some a =>','| none => .ok (h, src)\n  | some a =>','copying without a solver allowed (fix)'),
(H,'HandlerM.initFrom','.ok (h.new s, ⟨','.ok (h, ⟨','solver not cloned'),
(H,'HandlerM.initFrom','foundSolution := src.data.foundSolution }, some h.next⟩)','foundSolution := src.data.foundSolution }, some a⟩)','solver shared'),
(H,'HandlerM.initFrom','numLeafNodes := src.data.numLeafNodes','numLeafNodes := 0','leaf nodes not copied'),
(H,'HandlerM.initFrom','originalLB := src.data.originalLB\n          originalUB := src.data.originalUB','originalLB := src.data.originalUB\n          originalUB := src.data.originalLB','bounds swapped'),
(H,'HandlerM.initFrom','cuts := src.data.cuts','cuts := []','cuts not copied'),
(H,'HandlerM.initFrom','savedSolution := src.data.savedSolution','savedSolution := []','solution not copied'),
(H,'HandlerM.initFrom','reachedEnd := src.data.reachedEnd','reachedEnd := false','end not copied'),
(H,'HandlerM.initFrom','child := src.data.child','child := none','child not copied'),
(H,'HandlerM.oldSolver','if returnOld then h.clone x.solver else .ok (h, none)','if returnOld then .ok (h, x.solver) else .ok (h, none)','old solver returned itself'),
(H,'HandlerM.oldSolver','if returnOld then','if !returnOld then','old solver returned if not wanted'),
(H,'HandlerM.setOriginal','originalUB := s.upper','originalUB := s.lower','upper bounds set to the lower ones'),
(H,'HandlerM.setOriginal','some r.1.next⟩, r.2)','x.solver⟩, r.2)','solver not replaced'),
(H,'HandlerM.setOriginal','  | none => .undef\n  | some s => .ok (r.1.new s,','  | none => .exit\n  | some s => .ok (r.1.new s,','other classes are an error (fix)'),
(H,'HandlerM.destroy','h.delete x.solver','.ok h','solver not freed'),
(H,'HWorld.step','given := w.given ++ r.2.2.toList','given := w.given','solver handed out forgotten'),
(H,'treeHandlers','[.destroy 0]','[.destroy 1]','the search\'s handler is deleted'),
(H,'treeHandlers','[.destroy 0]','[]','the caller\'s handler is kept'),
(H,'HData.getOriginalLB','d.originalLB[col]?','d.originalUB[col]?','upper bound returned'),
(H,'HData.event','d.reachedEnd || decide','d.reachedEnd && decide','stops only if both hold'),
(H,'HData.event','d.numLeafNodes ≥ d.maxNumLeafNodes','d.numLeafNodes > d.maxNumLeafNodes','limit exceeded before stopping'),
(H,'HData.event','| .generatedCuts => .ok (d, .noAction)','| .generatedCuts => .ok ({ d with numCuts := d.numCuts + 1 }, .noAction)','generated cuts counted'),
(H,'HData.event','if status = 1 then .ok ({ d with numNodesOnTree := 0, numLeafNodes := 0, reachedEnd := true }, .noAction)','if status = 1 then .ok ({ d with numNodesOnTree := 0, reachedEnd := true }, .noAction)','leaf nodes kept at a limit'),
(H,'HData.event','else if status = 0 then\n        .ok ({ d with numNodesOnTree := 0, numLeafNodes := 0, reachedEnd := true }','else if status = 0 then\n        .ok ({ d with numNodesOnTree := 0, numLeafNodes := 0 }','end not noted'),
]
json.dump([dict(file=f,**{'def':d},old=o,new=n,claim=c) for f,d,o,n,c in L],open('/tmp/w/m15.json','w'))
for f,d,o,n,c in L:
    s=open('/verif/lean/Verif/Model/'+f).read()
    if s.count(o)!=1: print(d,c,s.count(o))
