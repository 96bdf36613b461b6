import Verif.Model.SolverOps

/-!
# Temporary files (src/utility/utility.cpp:157-182, src/test/BBHelper.cpp:405-425,
src/test/GurobiHelper.cpp:23-43, :316-386, :593-600, :624-631, src/test/CplexHelper.cpp:26-47, :176-221,
:547-596, :876-884, :940-947)

The file system is a partial function from names to contents, `P` is the type of the problems written.
The solvers themselves are parameters; what is modelled is what happens to files and descriptors.
-/
namespace VPC

/-- What a file holds: nothing, a problem in the format of its name, or anything else. -/
inductive FileC (P : Type) | empty | prob (p : P) | other
deriving DecidableEq, Repr

/-- Files and the number of descriptors the process has open. -/
structure Disk (P : Type) where
  files : List Char → Option (FileC P)
  fds : ℕ

/-- Write a file, replacing it if it exists. -/
def Disk.put {P : Type} (d : Disk P) (n : List Char) (c : FileC P) : Disk P :=
  { d with files := fun m => if m = n then some c else d.files m }

/-- `remove(f_name.c_str())`. -/
def Disk.del {P : Type} (d : Disk P) (n : List Char) : Disk P :=
  { d with files := fun m => if m = n then none else d.files m }

/-- How a function ends: normally, with `exit(1)`, or with an exception nobody catches (`std::terminate`).
The state of the disk survives in every case. -/
inductive Fin (P α : Type) | ok (d : Disk P) (a : α) | exit (d : Disk P) | abort (d : Disk P)

/-- The disk at the end. -/
def Fin.disk {P α : Type} : Fin P α → Disk P
  | .ok d _ => d
  | .exit d => d
  | .abort d => d

/-- Sequencing. -/
def Fin.bind {P α β : Type} : Fin P α → (Disk P → α → Fin P β) → Fin P β
  | .ok d a, f => f d a
  | .exit d, _ => .exit d
  | .abort d, _ => .abort d

/-- The fixed part of the name (src/utility/utility.cpp:165). -/
def tmpStem : List Char := "/tmp/tmpvpc".toList

/-- `.mps.gz`, the extension of the copies (src/test/BBHelper.cpp:424, src/test/GurobiHelper.cpp:27,
src/test/CplexHelper.cpp:31). -/
def mpsGz : List Char := ".mps.gz".toList

/-- `mkstemp` (src/utility/utility.cpp:168): tries names (`cands`, the parts of six characters) until one
does not exist, creates it empty and keeps it open; fails without a descriptor (`limit`) or a name. -/
def mkstemp {P : Type} (limit : ℕ) (d : Disk P) : List (List Char) → Option (List Char × Disk P)
  | [] => none
  | s :: ss =>
    if limit ≤ d.fds then none
    else match d.files (tmpStem ++ s) with
      | some _ => mkstemp limit d ss
      | none => some (tmpStem ++ s, { (d.put (tmpStem ++ s) .empty) with fds := d.fds + 1 })

/-- `createTmpFilename(f_name, add_ext)` (src/utility/utility.cpp:161-182); `none` is the exception. The
descriptor is never closed, and the file keeps the name without the extension. -/
def createTmpFilename {P : Type} (limit : ℕ) (cands : List (List Char)) (d : Disk P) (ext : List Char) :
    Option (List Char × Disk P) :=
  (mkstemp limit d cands).map fun r => (r.1 ++ ext, r.2)

/-- `writeMps(f_name, "mps", …)` as called at src/test/BBHelper.cpp:423: the library adds `.mps`, and `.gz`
if it was built with zlib. -/
def writeMps {P : Type} (zlib : Bool) (d : Disk P) (n : List Char) (p : P) : Disk P :=
  d.put (n ++ ".mps".toList ++ (if zlib then ".gz".toList else [])) (.prob p)

/-- `createTmpFileCopy(params, solver, f_name)` (src/test/BBHelper.cpp:409-425): the new `f_name`. -/
def tmpCopyOsi {P : Type} (limit : ℕ) (cands : List (List Char)) (zlib : Bool) (d : Disk P) (p : P)
    (name : List Char) : Fin P (List Char) :=
  if name = [] then
    match createTmpFilename limit cands d [] with
    | none => .exit d
    | some (n, d) => .ok (writeMps zlib d n p) (n ++ mpsGz)
  else .ok (writeMps zlib d name p) (name ++ mpsGz)

/-- The extension test (src/test/GurobiHelper.cpp:36-40, src/test/CplexHelper.cpp:41-45): the position is of
an unsigned type, so for a shorter name `compare` throws `std::out_of_range` (`none`). -/
def withExt (name ext : List Char) : Option (List Char) :=
  if ext = [] then some name
  else if name.length < ext.length then none
  else if name.drop (name.length - ext.length) = ext then some name
  else some (name ++ ext)

/-- `createTmpFileCopy` for a Gurobi model or a CPLEX problem (src/test/GurobiHelper.cpp:27-43,
src/test/CplexHelper.cpp:30-47). `caught`: the exception is caught by the caller, which calls `exit(1)`
(src/test/GurobiHelper.cpp:353-361); the CPLEX functions do not catch it. -/
def tmpCopyModel {P : Type} (limit : ℕ) (cands : List (List Char)) (caught : Bool) (d : Disk P) (p : P)
    (name ext : List Char) : Fin P (List Char) :=
  if name = [] then
    match createTmpFilename limit cands d ext with
    | none => .exit d
    | some (n, d) => .ok (d.put n (.prob p)) n
  else match withExt name ext with
    | none => if caught then .exit d else .abort d
    | some n => .ok (d.put n (.prob p)) n

/-- What a solver does with the problem it has read: it may report a result or end the process, and it may
write files (`writes`, e.g. logs or the presolved problem). -/
structure SolverRun (P R : Type) where
  writes : P → List (List Char × FileC P)
  result : P → Option R

/-- The versions with a file name: read the file (src/test/GurobiHelper.cpp:364-377, :568-591,
:602-622; src/test/CplexHelper.cpp:176-221, :547-587, :859-874, :886-938), `exit(1)` if there is no problem in it. -/
def runFile {P R : Type} (s : SolverRun P R) (d : Disk P) (n : List Char) : Fin P R :=
  match d.files n with
  | some (.prob p) =>
    let d := (s.writes p).foldl (fun d w => d.put w.1 w.2) d
    match s.result p with
    | some r => .ok d r
    | none => .exit d
  | _ => .exit d

/-- The six functions with a solver object (src/test/GurobiHelper.cpp:379-386, :593-600, :624-631;
src/test/CplexHelper.cpp:589-596, :876-884, :940-947): copy, run, remove the copy. -/
def runCopy {P R : Type} (limit : ℕ) (cands : List (List Char)) (zlib : Bool) (s : SolverRun P R)
    (d : Disk P) (p : P) : Fin P R :=
  (tmpCopyOsi limit cands zlib d p []).bind fun d n =>
  (runFile s d n).bind fun d r => .ok (d.del n) r

/-- Several such runs one after the other in one process, each with its own problem and its own choice of
names (the loop src/test/BBHelper.cpp:130-321 makes one to three per pass). -/
def runCopies {P R : Type} (limit : ℕ) (zlib : Bool) (s : SolverRun P R) :
    List (P × List (List Char)) → Disk P → Fin P (List R)
  | [], d => .ok d []
  | (p, c) :: l, d => (runCopy limit c zlib s d p).bind fun d r =>
      (runCopies limit zlib s l d).bind fun d rs => .ok d (r :: rs)

/-! ## Several processes on one disk -/

/-- Where a process is: between runs, after `mkstemp`, after the copy was written, after it was read. -/
inductive TPhase | idle | named (n : List Char) | wrote (n : List Char) | read (n : List Char)
deriving DecidableEq, Repr

/-- A process: the problems still to do, where it is, and what it wrote and read so far. -/
structure TProc (P : Type) where
  todo : List P
  phase : TPhase
  seen : List (P × Option (FileC P))

/-- One system call of `runCopy` (src/utility/utility.cpp:168; src/test/BBHelper.cpp:423; reading the file;
`remove`): between two of them other processes may run. `s` is the name `mkstemp` tries; if it exists, the
call tries again later. The problem stays in `todo` until its copy is removed. -/
def TProc.step {P : Type} (s : List Char) (d : List Char → Option (FileC P)) (q : TProc P) :
    TProc P × (List Char → Option (FileC P)) :=
  match q.todo, q.phase with
  | [], _ => (q, d)
  | _ :: _, .idle =>
    match d (tmpStem ++ s) with
    | some _ => (q, d)
    | none => ({ q with phase := .named (tmpStem ++ s) },
        fun m => if m = tmpStem ++ s then some .empty else d m)
  | p :: _, .named n =>
    ({ q with phase := .wrote n }, fun m => if m = n ++ mpsGz then some (.prob p) else d m)
  | p :: _, .wrote n =>
    ({ q with
        phase := .read n
        seen := q.seen ++ [(p, d (n ++ mpsGz))] }, d)
  | _ :: t, .read n =>
    ({ q with
        todo := t
        phase := .idle }, fun m => if m = n ++ mpsGz then none else d m)

/-- A schedule: who makes a step, and which name he tries if he calls `mkstemp`. -/
def tRun {P : Type} : List (ℕ × List Char) → (ℕ → TProc P) → (List Char → Option (FileC P)) →
    (ℕ → TProc P) × (List Char → Option (FileC P))
  | [], ps, d => (ps, d)
  | (i, s) :: l, ps, d =>
    tRun l (Function.update ps i ((ps i).step s d).1) ((ps i).step s d).2

end VPC
