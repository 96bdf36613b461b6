import Verif.Model.TmpFile
import Verif.Model.Prep
import Verif.Model.UserCuts

/-!
# The entry points of branch and bound (src/test/CbcHelper.cpp:377-472, src/test/GurobiHelper.cpp:568-631,
src/test/CplexHelper.cpp:819-947)

Each solver has four: a file name or a solver object, without or with cuts. What they start is a `Job`: the
solver is external. The LP parameters, the log level and the settings of the strategy (`UserCuts`) are left
out, and so are errors while the MIP is solved.
-/
namespace VPC

/-- What a solver is started on: the problem in its memory, and inequalities it is given as user cuts. -/
structure Job where
  engine : BBSolver
  inst : Inst
  user : List RowCut

/-- `applyCuts` (external, Osi/OsiSolverInterface.cpp): every row cut that passes its tests (`accepts`:
effectiveness, consistency, infeasibility) becomes a row. -/
def Inst.applyCuts (accepts : OsiRow → Bool) (I : Inst) (cuts : List OsiRow) : Inst :=
  { I with relax := { I.relax with
      rows := I.relax.rows ++ (cuts.filter accepts).map fun c => ⟨c.row, c.lb, c.ub⟩ } }

/-- The model that Cbc searches (src/test/CbcHelper.cpp:318-322 with cuts; without cuts it is the solver as
it is): `none` is a null pointer. -/
def cbcJob (accepts : OsiRow → Bool) (I : Inst) (cuts : Option (List OsiRow)) : Job :=
  match cuts with
  | none => ⟨.cbc, I, []⟩
  | some l => ⟨.cbc, I.applyCuts accepts l, []⟩

/-- Cbc with a solver object (src/test/CbcHelper.cpp:403-428, :452-472): a clone of it is searched. -/
def cbcSolver (accepts : OsiRow → Bool) (d : Disk Inst) (p : Inst) (cuts : Option (List OsiRow)) :
    Fin Inst Job := .ok d (cbcJob accepts p cuts)

/-- Cbc with a file name (src/test/CbcHelper.cpp:377-401, :430-450): the argument `f` is not used, the file
read is the parameter `FILENAME`; `initializeSolver` (src/utility/SolverHelper.cpp:57-78) ends the process if
it cannot be read and turns it into a minimization problem. -/
def cbcFile (accepts : OsiRow → Bool) (FILENAME : List Char) (d : Disk Inst) (_f : List Char)
    (cuts : Option (List OsiRow)) : Fin Inst Job :=
  match d.files FILENAME with
  | some (.prob p) => .ok d (cbcJob accepts p.minimise cuts)
  | _ => .exit d

/-- What Gurobi and CPLEX are started on (src/test/GurobiHelper.cpp:500-520, src/test/CplexHelper.cpp:785-815): the
problem read, and the cuts as inequalities with sense `≥`. They are started without cuts if none are given
(src/test/GurobiHelper.cpp:577, src/test/CplexHelper.cpp:870). `logs`: files written besides. -/
def fileJob (e : BBSolver) (logs : Inst → List (List Char × FileC Inst)) (cuts : Option (List OsiRow)) :
    SolverRun Inst Job where
  writes := logs
  result p := some ⟨e, p, (cuts.getD []).map OsiRow.asGe⟩

/-- How the problem is given. -/
inductive Input | file (f : List Char) | solver (p : Inst)

/-- The surroundings of a call: which cuts `applyCuts` accepts, the parameter `FILENAME`, the limit of
descriptors, the names `mkstemp` tries, whether the library writes compressed files, files written by the
solvers. -/
structure EntryEnv where
  accepts : OsiRow → Bool
  filename : List Char
  limit : ℕ
  cands : List (List Char)
  zlib : Bool
  logs : Inst → List (List Char × FileC Inst)

/-- The twelve entry points (src/test/CbcHelper.cpp:377-472; src/test/GurobiHelper.cpp:568-631;
src/test/CplexHelper.cpp:819-947). -/
def startBB (env : EntryEnv) (e : BBSolver) (d : Disk Inst) (i : Input) (cuts : Option (List OsiRow)) :
    Fin Inst Job :=
  match e, i with
  | .cbc, .file f => cbcFile env.accepts env.filename d f cuts
  | .cbc, .solver p => cbcSolver env.accepts d p cuts
  | e, .file f => runFile (fileJob e env.logs cuts) d f
  | e, .solver p => runCopy env.limit env.cands env.zlib (fileJob e env.logs cuts) d p

end VPC
