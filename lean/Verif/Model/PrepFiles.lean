import Verif.Model.TmpFile

/-!
# The files of the preprocessing mode (src/utility/preprocess.cpp:86-222, src/test/GurobiHelper.cpp:313-386,
src/test/CplexHelper.cpp:372-587)

The presolvers, the cleaning and the readers are external; `P` is the type of the problems. What is modelled is which
file holds which problem. What the cleaning does is in `Prep`.
-/
namespace VPC

/-- The surroundings of a run of `performCleaning`. `gurobi`, `cplex`: the bits of the strategy (the program is built with
these solvers); `grb`, `cpx`: the presolvers (`none`: the process ends); `clean`: `cleanProblem` and the
solves around it; `changed`: `was_cleaned` and nonempty; `zlib`: does `writeMps` compress; `alsoGz`: does the reader of
Gurobi or CPLEX look for the compressed file if there is no file of the name; `empty`: what is in a solver into which
nothing could be read. -/
structure PFEnv (P : Type) where
  stub : List Char
  filename : List Char
  mode : ℤ
  gurobi : Bool
  cplex : Bool
  limit : ℕ
  candsG : List (List Char)
  candsC : List (List Char)
  zlib : Bool
  alsoGz : Bool
  grb : P → Option P
  cpx : P → Option P
  clean : P → Option P
  changed : P → Bool
  empty : P

variable {P : Type}

/-- `presolved_name_stub` (src/utility/preprocess.cpp:86-87). -/
def PFEnv.presolvedStub (env : PFEnv P) : List Char :=
  if env.mode ≤ 1 then env.stub ++ "_presolved".toList else []

/-- `cleaned_name_stub` (src/utility/preprocess.cpp:88-90). -/
def PFEnv.cleanedStub (env : PFEnv P) : List Char :=
  if env.mode ≤ 1 then env.presolvedStub else env.stub ++ "_cleaned".toList

/-- `presolveModelWithGurobi` (src/test/GurobiHelper.cpp:313-377): the new name. -/
def grbPresolve (env : PFEnv P) (d : Disk P) (name : List Char) : Fin P (List Char) :=
  match d.files env.filename with
  | some (.prob p) =>
    match env.grb p with
    | none => .exit d
    | some q => tmpCopyModel env.limit env.candsG true d q name mpsGz
  | _ => .exit d

/-- The name under which CPLEX saves (src/test/CplexHelper.cpp:382-390). -/
def cpxName (env : PFEnv P) (d : Disk P) (name : List Char) : Fin P (List Char) :=
  if name = [] then
    match createTmpFilename env.limit env.candsC d [] with
    | none => .exit d
    | some (n, d) => .ok d n
  else .ok d name

/-- `presolveModelWithCplexCallable` (src/test/CplexHelper.cpp:372-458, :552-587): the presolved problem is saved
in a format of CPLEX (`.pre`), read again, and saved as `.mps.gz`. -/
def cpxPresolve (env : PFEnv P) (d : Disk P) (name : List Char) : Fin P (List Char) :=
  match d.files env.filename with
  | some (.prob p) =>
    (cpxName env d name).bind fun d n =>
    match env.cpx p with
    | none => .exit d
    | some q => tmpCopyModel env.limit [] false (d.put (n ++ ".pre".toList) .other) q n mpsGz
  | _ => .exit d

/-- Both presolvers (src/utility/preprocess.cpp:92-116). -/
def presolveAll (env : PFEnv P) (d : Disk P) : Fin P (List Char) :=
  (if env.gurobi then grbPresolve env d env.presolvedStub else .ok d env.presolvedStub).bind fun d n =>
  if env.cplex then cpxPresolve env d n else .ok d n

/-- `readMps(presolved_name_stub)` (src/utility/preprocess.cpp:118): the library tries the name, then with its extension;
an error is not noticed. -/
def readBackFile (env : PFEnv P) (d : Disk P) (n : List Char) : P :=
  match d.files n with
  | some (.prob p) => p
  | _ => match d.files (n ++ ".mps".toList) with
    | some (.prob p) => p
    | _ => match d.files (n ++ mpsGz) with
      | some (.prob p) => p
      | _ => env.empty

/-- What the branch-and-bound tests of the cleaned instance solve (src/utility/preprocess.cpp:206-222,
src/test/BBHelper.cpp:198-304): Gurobi and CPLEX read the file `cleaned_name_stub + ".mps"`, Cbc gets the solver. -/
def testedProblem (env : PFEnv P) (d : Disk P) (inMemory : P) : Option P :=
  if !env.gurobi && !env.cplex then some inMemory
  else match d.files (env.cleanedStub ++ ".mps".toList) with
    | some (.prob p) => some p
    | some _ => none
    | none =>
      if env.alsoGz then
        match d.files (env.cleanedStub ++ mpsGz) with
        | some (.prob p) => some p
        | _ => none
      else none

/-- The tests are made only if the instance was changed (src/utility/preprocess.cpp:203-223); a problem that cannot
be read ends the process. Returned: the cleaned instance, and the one that was tested. -/
def testCleaned (env : PFEnv P) (d : Disk P) (J : P) : Fin P (P × Option P) :=
  if env.changed J then
    match testedProblem env d J with
    | none => .exit d
    | some K => .ok d (J, some K)
  else .ok d (J, none)

/-- The files in `performCleaning` (src/utility/preprocess.cpp:86-223). -/
def prepFiles (env : PFEnv P) (d : Disk P) : Fin P (P × Option P) :=
  (presolveAll env d).bind fun d n =>
  if env.mode > 1 then
    match env.clean (readBackFile env d n) with
    | none => .exit (d.del n)
    | some J => testCleaned env (writeMps env.zlib (d.del n) env.cleanedStub J) J
  else testCleaned env d (readBackFile env d n)

end VPC
