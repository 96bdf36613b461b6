import json
F='PrepFiles.lean'
ms=[]
def m(d,old,new,claim,f=None):
    f=f or F
    ss=open('/verif/lean/Verif/Model/'+f).read()
    assert ss.count(old)==1,(d,old,ss.count(old))
    ms.append({'file':f,'def':d,'old':old,'new':new,'claim':claim})
m('PFEnv.presolvedStub','if env.mode ≤ 1 then env.stub ++ "_presolved".toList else []','if env.mode ≤ 2 then env.stub ++ "_presolved".toList else []','mode 2 leaves a presolved file of its own')
m('PFEnv.presolvedStub','env.stub ++ "_presolved".toList else []','env.stub else []','the input is overwritten / wrong name')
m('PFEnv.cleanedStub','else env.stub ++ "_cleaned".toList','else env.stub','cleaned file overwrites the input')
m('PFEnv.cleanedStub','if env.mode ≤ 1 then env.presolvedStub else','if env.mode < 1 then env.presolvedStub else','mode 1 tests another file')
m('grbPresolve','tmpCopyModel env.limit env.candsG true d q name mpsGz','tmpCopyModel env.limit env.candsG true d p name mpsGz','the instance before presolving is saved')
m('grbPresolve','tmpCopyModel env.limit env.candsG true d q name mpsGz','.ok d name','the presolved instance is not saved')
m('cpxName','if name = [] then','if name ≠ [] then','name of the user ignored')
m('cpxPresolve','q n mpsGz','q name mpsGz','saved under the name before')
m('cpxPresolve','(d.put (n ++ ".pre".toList) .other)','(d.put (env.filename) .other)','the input is overwritten by CPLEX format')
m('presolveAll','if env.cplex then cpxPresolve env d n else .ok d n','if env.cplex then cpxPresolve env d n else .ok d env.presolvedStub','name of the copy forgotten')
m('presolveAll','if env.cplex then cpxPresolve env d n','if env.cplex then cpxPresolve env d []','the name is not passed on')
m('readBackFile','match d.files n with\n','match d.files (n ++ ".mps".toList) with\n','name not tried first')
m('testedProblem','if !env.gurobi && !env.cplex then','if !env.gurobi || !env.cplex then','memory tested with an engine')
m('testedProblem','(env.cleanedStub ++ ".mps".toList)','(env.stub ++ ".mps".toList)','the original instance is tested')
m('testedProblem','if env.alsoGz then','if !env.alsoGz then','gz flag inverted')
m('testCleaned','if env.changed J then','if !env.changed J then','tests when nothing changed')
m('testCleaned','.ok d (J, some K)','.ok d (K, some K)','returned instance is the tested one')
m('prepFiles','if env.mode > 1 then','if env.mode > 2 then','mode 2 does not clean')
m('prepFiles','testCleaned env (writeMps env.zlib (d.del n) env.cleanedStub J) J','testCleaned env (writeMps env.zlib d env.cleanedStub J) J','the copy is not removed')
m('prepFiles','testCleaned env (writeMps env.zlib (d.del n) env.cleanedStub J) J','testCleaned env ((writeMps env.zlib d env.cleanedStub J).del env.filename) J','the input is removed')
m('prepFiles','testCleaned env (writeMps env.zlib (d.del n) env.cleanedStub J) J','testCleaned env (writeMps env.zlib (d.del n) env.cleanedStub (readBackFile env d n)) J','the uncleaned instance is saved')
m('prepFiles','| none => .exit (d.del n)','| none => testCleaned env (d.del n) (readBackFile env d n)','failing cleaning goes on')
json.dump(ms,open('m25.json','w'))
print(len(ms))
