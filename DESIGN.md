# Formal model of akazachk/vpc: design

* `properties.jsonl` – the properties, in English (C01 …).
* `MANIFEST.json` – which theorem carries which property, and its status.
* `lean/Verif/Model/*.lean` – the model: computable Lean definitions, one per function (or per
  named block of a long function) of the C++ code; the comment of each definition cites file and lines.
* `lean/Verif/Props/*.lean` – specifications, theorems, and beside each theorem an `example` that
  meets its hypotheses.
* `seeded/LOG.jsonl` – wrong programs (edits of the model) and the theorems that rejected them.
* `tools/` – scripts that generate `MANIFEST.json`.

Build: `cd lean && lake build`.

## 1. Trusted base

1. Lean 4.33.0's kernel. Mathlib is used as a library of proved theorems; nothing in it is trusted
   beyond what the kernel checks.
2. Axioms: only `propext`, `Classical.choice`, `Quot.sound`. No axiom is declared, no compiled code
   is trusted (`decide +kernel` runs in the kernel). `decide` is used only for concrete witnesses of a
   negation and for `example`s, never to cover a domain by sampling.
3. The correspondence between the C++ text and the Lean definitions. It was made by reading; nothing is
   extracted or run. Citations make it reviewable.
4. The general modelling choices of section 2.

## 2. Modelling choices that hold everywhere

| C++ | model |
|---|---|
| `double` | exact rational `ℚ` (`Stats`: any linearly ordered field with a square root operation; `VecOps`: rationals with an arbitrary rounding function, exact arithmetic being one instance). No NaN, no signed zero, no overflow. "Infinity" is the finite constant that the code compares with. |
| `int` | `ℤ`/`ℕ`, except where the code depends on wrap-around (argument parsing, bit options: `BitVec 32`). |
| `std::vector`, arrays | `List`; an access outside the allocation is the outcome *undefined*. |
| undefined behaviour, failing `assert`, `exit(1)`, uncaught exception | separate outcomes of the result type (`Res.undef`, `Res.exit`, or `none` where only one exists). A theorem that speaks about a result says explicitly that the call returned, or proves when it does. |
| `exit` reasons, failure types | enumerations with the names of the C++ enumerations. |
| LP solver (Osi/Clp), Cbc, Cgl Gomory | answers come from an environment argument over which theorems quantify universally. Where a theorem needs the answers to be *right* (e.g. "a side reported infeasible is infeasible"), this is a visible hypothesis of the theorem. |
| `clock()` | an argument; not assumed monotone. |
| files, `std::stod`, `strtod`, `std::sort` | a file is the list of its lines; `stod`/`strtod` an arbitrary partial function; `std::sort` any function returning a sorted permutation. |
| heap, `new`/`delete` | `Own.lean`: numbered objects with a set of live ones. Elsewhere objects are values. |
| printing | not modelled, except where it has an effect (e.g. a loop that does not end). |

What counts as a property of the code: a theorem about the model function. If the code violates the
English property, the repository contains (a) a theorem stating the violation (a concrete witness or, where
possible, "for all"), and (b) the strongest positive statement found, suffixed `_partial`. The status in the
manifest is then `partial`, because the property as a user would wish it is not true of the code.

## 3. What is modelled

| model file | code |
|---|---|
| `Num` | tolerance comparisons, include/common/utility.hpp |
| `Sparse` | sparse rows, row cuts |
| `CutHelper` | src/cut/CutHelper.cpp: badViolation, removeSmallCoefficients, badSupport, badDynamism, cleanCut, isRowDifferent, howDuplicate, parallelism tests |
| `NBSpace` | src/utility/nbspace.cpp: setCutFromNBCoefficients, compNBCoor, setCompNBCoorPoint/Ray |
| `PRLP` | row collection (duplicates), PRLP::setup, generation of the rows of the point-ray LP |
| `GenCut` | CglVPC/PRLP counters: genCut, addCut, replacement, failure recording, reachedCutLimit, reachedFailureLimit, limits, rounds |
| `CutInfo` | src/test/analysis.cpp 799-1419: support, activity, updateCutInfo, setCutInfo, updateDisjInfo, check against a feasible solution |
| `LogTable`, `LogFile` | src/test/analysis.cpp 26-796, src/main.cpp 1006-1131, src/utility/preprocess.cpp 255-267 and 430-548: header and line of the log in both modes, field by field; the file over several runs. How printf writes a number is a parameter |
| `BBTests` | src/test/BBHelper.cpp 36-385: runBBTests (runs, seeds, permutation, configurations), best and average; solvers, clock and shuffles are parameters |
| `PrlpTime` | PRLP::setup: time limits and exit reason of the first solve |
| `Rounds` | CglVPC::generateCuts end to end, tryObjectives; the rounds loop of main.cpp; doCustomRoundOfCuts |
| `ProbData` | CglVPC::getProblemData |
| `Prep` | performCleaning (src/utility/preprocess.cpp:42-270): presolver, LP solver and branch and bound are external; file names are not modelled |
| `Target` | targetStrongAndDifferentCuts, findCutsTightOnPoint, tryOneObjective, updateStepForTargetedCutGeneration, iterateDeepestCutPostGomory (src/cut/PRLP.cpp:494-518, 817-890, 940-1990), nonbasic space, `MODE_OBJ_PER_POINT = 121` (a constant): LP solver, clock, sorts, basis and the Gomory LP are external; the state of the point-ray LP (bounds, equation, objective) is modelled |
| `SetupList` | OsiChooseStrongCustom::setupList and method 7 of chooseVariable (src/branch/OsiChooseStrongCustom.cpp:236-448, 580-628), number of candidates (src/disjunction/PartialBBDisjunction.cpp:175-181); CoinSort_2 is any function that permutes and sorts; shadow prices are off as in both constructors |
| `DisjOpts` | parseDisjOptions (include/VPCParameters.hpp:768-800) and its use in src/main.cpp:372-377; std::stoi on top of the model of strtol; an uncaught exception ends the process |
| `Bounds` | the four LPs of the main program and the bounds reported (src/main.cpp:205-227, 466-538, 656-708, 883-891) over an arbitrary solver implementation (`SolverOps`); cut generation is external |
| `UserCuts` | branch and bound with user cuts (src/test/GurobiHelper.cpp:44-571, src/test/CplexHelper.cpp:53-365, 596-859, src/test/CbcHelper.cpp:31-376): parameters set, callbacks as state machines over the events, results of the runs; the solvers are external and errors of their parameter calls, the saved start file and the Concert interface are left out |
| `Names` | names of disjunctions (src/disjunction/Disjunction.cpp:266-356, src/disjunction/SplitDisjunction.cpp:281-299, src/branch/VPCEventHandler.cpp:1123-1131, 1276-1283) as lists of characters; the text of a non-integral number (`%f`) is a parameter |
| `TreePrep` | settings of the tree search and its preparation as a whole (src/disjunction/PartialBBDisjunction.cpp:92-283, 304-464); the search is given by the saves it made and its final state |
| `BetterBranch` | `betterBranch` of the branching decision (src/branch/CbcBranchStrongDecision.cpp:71-165) |
| `MainRun` | `main` from the parameters to the rounds, with the known optimum and the search for an optimal solution (src/main.cpp:174-377, :462-839, :1018-1035) |
| `RoundFile` | the table of the rounds, measuring of times, merging of the generator's timers (src/main.cpp:378-457, :500-520, :553-636, :742-819) |
| `Iface` | calls on the interface object, reading of an instance file (src/utility/VPCSolverInterface.cpp:116-276, src/utility/SolverHelper.cpp:8-62) |
| `CpxData` | conversion of a CPLEX problem (src/utility/OsiProblemData.cpp) |
| `ObjCopy` | memory of disjunctions and sets of disjunctions: copy, assignment, reset, destruction (src/disjunction/*.cpp); bases and members on the heap, everything else plain values |
| `Collect` | CglVPC::initializeSolverWithRootChanges, setupConstraints, genDepth1PRCollection (src/cut/CglVPC.cpp:867-1437): from the disjunction to the rows of the point-ray LP |
| `Params` | include/VPCParameters.hpp, argument parsing of src/main.cpp, option bits, string helpers |
| `Timer` | include/common/TimeStats.hpp |
| `VecOps` | packedDotProduct, dotProduct, packedSum |
| `Stats` | SummaryStats, computeSummaryStats, update |
| `Files` | parseFilename, getObjValueFromFile, getSolFromFile |
| `Solver` | objective setting/flipping/conversion, dense↔sparse cuts, loadProblem |
| `SolverOps` | checkSolverOptimality, hot starts, applyCuts, status queries of SolverHelper.cpp |
| `Own` | ownership in CglVPC and VPCSolverInterface |
| `Disj` | Disjunction, DisjunctionSet, getSolverForTerm, setCgsName |
| `Split` | src/disjunction/SplitDisjunction.cpp |
| `BB`, `BBSol` | src/branch/VPCEventHandler.cpp, src/disjunction/PartialBBDisjunction.cpp |
| `Clean` | cleanProblem of src/utility/preprocess.cpp |
| `Choose` | CbcCompareBFS, CbcBranchStrongDecision (bestBranch), OsiChooseStrongCustom (chooseVariable, doStrongBranching, criterion) |
| `Angle` | getParallelism, getOrthogonality and howDuplicate with them (src/cut/CutHelper.cpp:402-484), stationarity test (src/cut/PRLP.cpp:1933-1950); quotients by square roots kept exactly, compared by signed squares |
| `Handler` | the event handler as an object: construction, copy, assignment, setOriginalSolver, destruction, getters, and `event` outside its large branches (src/branch/VPCEventHandler.cpp:320-433, 957-1111, include/VPCEventHandler.hpp:84-205); entries of the statistics are opaque |
| `PrlpSolve` | resolvePRLP over an abstract LP solver with a clock; settings of LP solvers |
| `Float` | rounding to p binary digits, ties to even; pairs met by the packed dot product |
| `TmpFile` | temporary copies of problems for other solvers: mkstemp, writeMps, names with extensions, the six drivers, and several processes on one disk |
| `Order` | comparisons for sorting: by the entries of an array of doubles (with NaN and infinities), of rays by orthogonality, of timer and parameter names; insertion in an ordered set |
| `Sense` | objective sense of the problem that the branch-and-bound tests solve, best of the runs, bound at which Gurobi stops |
| `StrongRun` | effects of strong branching on the solver, counters and cutoff; fixing of variables |
| `TreePlot` | histories of recorded node statistics; edges of the plot string, tables of the tikz string |
| `CompCopy` | choosers and point-ray LPs: construction, copies, assignment, destruction |
| `SolverMem` | which solver object is copied, used and deleted on every path of generator, partial tree, splits, branch-and-bound tests, cleaning and main program; the contents of the solvers and what the calls compute are arbitrary |
| `Cond` | condition numbers of the basis in norms 1 and 2 over exact rationals; solver (statuses, columns of the inverse) and LAPACK are external |
| `Entry` | the twelve entry points of branch and bound: what each starts the solver on |
| `Status` | the questions about the status of a variable, with both branches |
| `PrepFiles` | files of the preprocessing mode: presolved copy, cleaned file, what is read back and what the tests solve (src/utility/preprocess.cpp:86-223, GurobiHelper.cpp:313-377, CplexHelper.cpp:372-587) |
| `RunTimers` | which timer is started and stopped when, in the generator and in the program, as a function of how the run goes (CglVPC.cpp, PRLP.cpp, SplitDisjunction.cpp, main.cpp) |
| `BBRepair` | a child that the node event takes for pruned, and the repair at the next tree event (VPCEventHandler.cpp:494-565) |
| `TikzDraw` | the last correction of the tables of the tikz tree and the recursion that writes its nodes, `src/utility/vpc_debug.cpp:207-293, :438-465` |
| `FloatCut` | deriving a cut from a solution of the point-ray LP and removing small coefficients, every operation rounded (src/utility/nbspace.cpp:661-741, src/cut/CutHelper.cpp:50-104); no overflow, underflow or fused operations |

Not modelled: the interior of LP/MIP solvers and of Cgl; text that is only printed (vectors and matrices in
debug.cpp, node tables, the summary at the end of main.cpp); code that is not compiled or never reached (the
C++ interface of CPLEX, CplexHelper.cpp:948-1253; the methods of `bestBranch` other than 1; code in
comments); floating-point rounding (except in `Float`, `VecOps`, `FloatCut` and in the thresholds of C13, which are
exact binary64 values); the content of stored warm-start bases (whether the solver accepts one is an input).

## 4. Plan and outcome for each property

"Method" is how the theorem is proved. "Found" is a disagreement between the code and the property; each
is a theorem.

| id | model | method | found |
|---|---|---|---|
| C01 | `NBSpace` | induction over the sparse row: signed slack is preserved coordinate by coordinate; error bound for dropped entries | ranged rows are complemented wrongly |
| C02 | `PRLP` + convex hull spec (`Validity`) | finite sums; both directions; setup keeps every row (induction over the collection) | – |
| C03 | composition of C01, C02, corner-polyhedron decomposition (`tableau_identity`) | algebra over an arbitrary tableau | a term whose LP is not proven optimal is dropped, and then the cut can be invalid |
| C03 end to end | `Collect` on top of `Disj`, `Split`, `BB`, `PRLP`, `NBSpace` (`EndToEnd`) | refinement of the term LPs, tableau identity, composition with C02/C04/C05; a complete concrete run is checked in `EndToEndEx` | kept pruned terms are never collected. `ErrorBound`: without the exact-arithmetic hypotheses the violation of a cut is at most an explicit sum of the dropped coordinates, coefficients and duplicate-row differences |
| C04 | `Split` | case analysis over LP outcomes, floor/ceiling facts | – |
| C05 | `BB` | invariant over event histories: the open nodes, the saved statistics and pruned nodes cover the root box | a child not proven optimal is dropped |
| C06 | `Clean` | invariant over the loop; oracle axioms "infeasible means empty", "optimal means bound" are hypotheses | wrong for maximization |
| C07 | `CutHelper` | induction over the row; exact error bound | result may be stronger than the input by at most `EPS·|coeff|`-type terms |
| C08 | `CutHelper` | unfold each acceptance test; the spec is independent | – |
| C09 | `CutHelper` | induction over merging of two sorted rows | opposite right-hand sides |
| C10 | `PRLP` | induction; every dropped row is implied by a kept one up to the tolerance | pairs of points can eliminate each other |
| C11, C12, C41, C49, C50 | `GenCut` | invariants over arbitrary operation histories | double counting on replacement; limits over repeated use; user objectives ignored |
| C13 | `GenCut` | arithmetic; monotonicity | – |
| C14 | `GenCut` | finite enumeration of the two enumerations (complete, not sampled) | – |
| C15 | `Num` | linear arithmetic | default `isNegInfinity` |
| C16, C53 | `Timer` | invariant over operation histories; divergence is "no fuel suffices" | re-registration; lookup loop never advances |
| C17, C18, C51 | `Params` | invariant over parameter-setting histories; induction over digits | INF unchecked; set by name hits CUTLIMIT; wrap-around |
| C19, C20, C31, C52 | `Params` | bit-vector facts by extensionality over bit positions, decimal digits by `Nat` arithmetic | three wrong switches |
| C21 | `Stats` | algebra of running moments in a field | max of negatives; start from empty |
| C22, C42, C54 | `Files` | induction over characters and lines | dots in directories; unreadable first record; double blanks |
| C23, C24, C25, C26, C55 | `Solver` | pointwise algebra over arbitrary vectors | dense conversion truncates; offset ignored; out-of-range read |
| C27 | `Own` | heap invariant over all programs of a stated discipline; violations by witness | several double frees |
| C28, C29, C58, C59 | `Disj` | induction over members / changes | common inequalities ignored; loosening; stale values |
| C30, C32 | `Choose` | argmax invariant; order laws | scores ignored in three situations |
| C33, C63–C66 | `Rounds` | induction over rounds, using the invariants of `GenCut` | supplied disjunction unusable; round number lost; unimplemented modes exit |
| C34, C60, C61, C35 | `BB`, `BBSol` | invariants over histories | rows never checked; wrong side of the root bound |
| C36, C37 | `VecOps` | induction over merged sparse vectors; rounding-error bound | stale output; drop before scaling |
| C38, C46 | `NBSpace` | induction over insertion | free variables; unsorted indices |
| C39, C45 | `Split` | sorted permutation spec; counting | preparing twice accumulates |
| C40, C67, C68 | `ProbData` | loop invariant over variables; sign analysis; fold bounds | documentation of one table; no rows; empty matrix |
| C43, C44, C56, C57 | `SolverOps` | over an arbitrary solver implementation (state machine) | exit instead of infinite bound; superbasic variables unclassified |
| C47, C02, C10 | `PRLP` | induction over the rows | abort on a satisfiable collection |
| C48 | `Solver`/`ObjCut` | pointwise algebra | dropped coefficients invalidate the cut |
| C69 | `Collect` | induction over the two loops with the cut limit | – |
| C70 | `Collect` (`SavedObj`) | sign analysis of the ratio | opposite signs are always accepted; the second solve is not looked at |
| C71, C72, C73 | `GenCut` (`Pool`) | invariant over histories of objectives; one-step characterisation of what an objective does to the pool | replacement leaves near-parallel cuts; root cuts not compared; a stronger duplicate is dropped |
| C74 | `Params` (`DocVals`) | documented values transcribed from the comments of the header as `DocInt`; case analysis over the table of declarations | STRENGTHEN=3, PRLP_TIMELIMIT=-2 rejected; undocumented values accepted |
| C75, C76 | `PrlpTime` | case analysis; arithmetic | -1 is not unlimited, and not half afterwards |
| C77 | `CutInfo`, `Rounds` | induction over the list of rounds; the counters of each round by the invariants of `GenCut` | unfilled record of a CUSTOM round |
| C78, C79, C80 | `CutInfo` | induction over the list of cuts / disjunctions | average over a collection with old cuts; min/max never recorded; `+=` in averages |
| C81 | `CutInfo`, `Params` | induction over the cuts; bit arithmetic | option tested by equality |
| C82 | `BBTests` | induction over the runs; spec by IsLeast/IsGreatest and sums | – |
| C83 | `BBTests` | permutation lemmas for sums; set of attained objective values as specification | vector of wrong length, integer marks not permuted, cuts not permuted |
| C84 | `BBTests`, `Params` | integer arithmetic with wrap-around | wrap below -1 ends the process, overflow with the clock |
| C85 | `BBTests` | induction over the runs | all-cuts runs never made, missing solver reported as zeros |
| C86 | `Split` (`SplitChoice`) | induction over the sorted candidates | – |
| C87, C88 | `BB` (`BBTight`, `BBKeep`) | characterisation of recorded changes; replay of the changes; case analysis of the final state | changes below 1e-7 |
| C89 | `Choose` (`ChooseCodes`) | induction over the candidates of strong branching | infeasible direction returned |
| C90, C91 | `Rounds`, `GenCut` (`GenReasons`) | induction over the loop over disjunctions | replaced cuts keep the old disjunction |
| C92 | `LogTable` (`LogTable`, `LogColumns`, `LogFacts`) | a table of names and meanings is the specification; header and line are both shown to be its projections; names compared in the kernel | the end of the preprocessing line is shifted by three columns |
| C93 | `LogTable` (`LogGap`) | splitting at commas inverts the concatenation | commas in texts |
| C94 | `LogTable` (`LogGap`) | order reasoning over ℚ | LP bound equal to the optimal value |
| C95 | `LogTable`, `CutInfo`, `Rounds` (`LogGap`) | from the ledger of the generator through the merge to the column | counters hidden when no objective was tried |
| C96 | `LogFile` (`LogFile`) | induction over the history of runs | a run that stops without message |
| C97 | `Collect` (`CollectTight`) | case analysis over signs and sizes; induction over the rays | — |
| C98 | `Prep` on top of `Clean` | induction over the passes with the invariant that the bounds stay within those the LP solution belongs to | — |
| C99 | `Prep` | case analysis of the conditions for copying | objective, coefficients and integrality are not compared; the LP is not solved again between passes |
| C100 | `Target` | induction over the loops with a generic invariant rule (`Keeps`): a predicate preserved by attempts made on intended objectives is preserved by the whole function | — |
| C101 | `Target` on top of `GenCut` | refinement: the log of attempts replayed from the initial generator gives the final one | — |
| C102 | `Target` | invariant "below the limits before each attempt", arithmetic of the failure ratio | cut limit up to 10^12 |
| C103 | `Target`, `GenCut`, `EndToEnd` | invariant: raised bounds do not change the feasible set; composition with the end-to-end theorem | exact arithmetic for validity |
| C104 | `Target` | decomposition of the log into the eight phases | — |
| C105 | `Target` | the second solve sees its own solution | violated by the code |
| C106 | `Target` | from the decomposition | violated by the code |
| C107 | `PRLP`, `Target` | the first of the sorted points is retained | violated when deduplication drops both rows |
| C108 | `SetupList` | invariant of the in-place array: choices, gap, others; the running worst entry | full for positive values; violated for the reversed methods |
| C109 | `SetupList` | case analysis and search lemma | the aborts and the non-fractional value are proved |
| C110 | `DisjOpts`, `Rounds` | induction over the text and over the rounds | errors not reported, undefined behaviour: proved |
| C111 | `Bounds`, `SolverOps` | invariant: rows of each of the four LPs in terms of the cuts of the rounds | limits of the solver: witness |
| C112 | `UserCuts` | induction over the events; round trip of the sparse arrays | cuts lost, reversed or doubled: witnesses |
| C113 | `UserCuts` | invariants of the callback state machines over all histories | values read uninitialised or from the incumbent: proved |
| C114 | `UserCuts`, `Params` | membership in the list of calls, for all strategies | options without effect, negative strategies: proved |
| C115 | `UserCuts` | characterisation of the outcome by the last run | objective 0 without a solution: witness |
| C116 | `Names` | a reader as specification, round trip; number of `V`s by induction | unreadable for deeper trees: proved for all of them |
| C117 | `TreePrep`, `Params` | decoding of the digits, for all values | digits 5 and 3: proved |
| C118 | `BetterBranch` | invariant of the comparison over the list of candidates | ties: witness |
| C119 | `MainRun`, `Files`, `Params` | inversion of the run for every world; value of the solution as a dot product | constant in the objective: proved wrong for every such run, and a witness |
| C120 | `MainRun`, `Rounds`, `Prep` | case analysis of the run | nearly integral solutions: witness; return code: proved constant |
| C121 | `RoundFile`, `Rounds`, `Timer`, `Names` | table by position; induction over the rounds for the times | names without log or extension, densities: proved |
| C122 | `RoundFile`, `Timer` | induction over the rounds | initial solve: proved to be multiplied by the number of rounds |
| C123 | `Iface`, `SolverOps` | invariant over all histories of calls (rows added and cuts collected hold at the solutions of the problem loaded) | loading with a nonempty collection: proved to apply old cuts |
| C124 | `Iface`, `Files` | parsing theorems of C22, cases on the status | positive status, upper-case extensions: proved |
| C125 | `CpxData`, `Solver` | induction over columns for the arrays, then equivalence of solutions | empty matrix, pure LP, special variables: proved |
| C126 | `ObjCopy` | refinement of a world of values, with an ownership invariant | number of the round not copied, overwritten sets leak: proved |
| C62 | `Clean` | invariant: changed ⇒ counted | counted twice |
| C127 | `Angle`, `VecOps`, `GenCut` | Cauchy-Schwarz with equality, over the reals; simulation of the generic loop of C72 | unsorted packed vectors, points at the origin: proved |
| C128 | `Handler` | refinement of a world of values, with a map from addresses to owners | no solver, overwritten solvers, integer getters: proved |
| C129 | `Collect`, `NBSpace` | exact reduced costs give the objective at every point (basis inverse is two-sided), error of the packed vectors bounded by columns times tolerance | infeasible incumbents, ranged rows, very many columns: the code exits (exact condition and witnesses) |
| C130 | `PrlpSolve`, `SolverOps` | abstract solver with potential function (clock, deadline); case analysis of the stages | time limit can be exceeded 12-fold, NaN and minus infinity accepted after the retry, option added twice is off again: witnesses |
| C131 | `Float`, `VecOps` | invariant of the compensated loop (accumulator, compensation, error) for every rounding with relative error u; the three loops are passes over a list of pairs; `fl 53` satisfies the hypothesis | overflow and underflow are not modelled; the uncompensated version violates the bound and the forms can differ (witnesses) |
| C132 | TmpFile | invariant over all schedules of several processes (names in use are pairwise different and exist, a written copy holds the problem of its process); induction over the runs of one process for the files and descriptors left | partial: base files and descriptors leak, a file with the name of the copy is overwritten, no zlib means the wrong file is read (all witnessed) |
| C133 | Order | the laws checked for all triples; exact characterisation of the arrays for which they hold; any two sorted permutations list the same values | partial: with NaN among different entries the laws fail (exact condition proved); the order of rays violates them (witness; the function using it is not called) |
| C134 | Sense | values negated at every point; best of runs by induction; settings from C114 | partial: all parts hold for minimization instances (and values and best of runs for Cbc); each part fails for maximization with Gurobi (negations proved) |
| C135 | StrongRun, Choose | equation of one candidate, induction over the list; refinement to the model of return codes; box invariant for fixing | proved for branching information that refers to the arrays of the solver (what Osi makes); with copies nothing is restored (negation proved) |
| C136 | TreePlot | invariant of the recorded tables over histories (numbers, degrees, labels); edges added by each loop up to permutation | partial: plot string proved; the tikz string is the tree without solutions found by strong branching, or after a finished search; otherwise two edges enter node numNodes (general negation proved) |
| C137 | CompCopy, ObjCopy | refinement of programs on a heap to programs on values, with the invariant that every array has exactly one owner | proved |
| C138 | CompCopy | equations of the copy operations | partial: everything but the LP is copied; the LP is lost (negation proved) |
| C139 | SolverMem | heap of numbered solver objects; Hoare-style rule per function (what is left, what may be changed), induction over nodes, search steps, terms, disjunctions, rounds and runs | partial: with pruned nodes kept one solver per open node is never deleted, and a maximization problem given as const is changed (witnesses, exact count proved) |
| C140 | Cond | loops of the code compared with matrices of Mathlib: induction over columns and entries; submultiplicativity of the column-sum norm | partial: norm 1 counts the norm of a small basis without slacks as 1 (witness); norm 2 undefined without rows and from 46341 rows on (proved) |
| C141 | Entry, TmpFile, UserCuts | points of the job = points asked for, through applyCuts rows or ≥-inequalities; copies by C132 | partial: file versions for Cbc ignore the name (proved for every name, witness), ≤-cuts reversed for Gurobi/CPLEX |
| C142 | Status, SolverOps | place of a variable as specification, both branches compared with it | partial: free only without superbasic variables; fixed never found without Clp, other solvers and problems without rows undefined (negations proved) |
| C143 | PrepFiles, TmpFile | disk as a function from names to contents; footprint of every step proved for all disks and all temporary names; the tests' reader modelled with and without look-up of compressed files | partial: the file tested is `X.mps` although `X.mps.gz` was written: old file tested, or the process ends (negations proved) |
| C144 | RunTimers, Timer | histories of timer calls as a function of the run; alternation proved by composition of balanced pieces, times compared through the sets of timers that run together | partial: a split disjunction without candidate leaves its timer on and the next one aborts; total time 0 or too short when the program ends early; the limit over the terms asks an unregistered timer (negations proved) |
| C145 | Bounds, SolverOps | invariant of the loop over rounds: the point is in all four LPs and satisfies all cuts (any solver); with a solver that solves feasible LPs also totality and the bounds | partial: at a time limit the value of an unsolved LP is reported as bound; without Gomory cuts their bound is infinite (negations proved) |
| C146 | Target | Two invariants carried through the nine heuristics, "every objective has its own early reading" and "one early reading in hand"; the second is what a passed limit test gives and an objective uses up. | Partial: between post-Gomory iterations the code does not look at the time limit, proved by time_limit_gomory_ignores. |
| C147 | PRLP, PrlpTime | Completeness of the loaded LP (setup_complete) and a theorem of the alternative for finitely many inequalities, proved in Props/Farkas by eliminating one variable at a time: what is derived from the rows is a point of the closed hull or a direction of it. | That the solver is right when it says infeasible is a hypothesis. |
| C148 | PRLP, Target | Completeness of the loaded LP: every valid inequality is a feasible solution, so the optimal one is no worse. For the run (Props/Strongest): solutions_optimal (C103), every row traced back to the point or ray it came from. |  |
| C149 | PRLP | Theorem of the alternative (Props/Farkas) for the homogenized system of the rows, the right-hand side and the target point; completeness of the loaded LP carries it over to the optimal solution. |  |
| C150 | PRLP, Collect | The values of packed points and rays in reduced costs are the distances and slopes of the term objective (Props/CollectLive), so the objective cut is valid for the hull; completeness of the loaded LP (C147, C148) gives the rest. |  |
| C151 | PRLP, Collect | Soundness (Exact) and completeness of the loaded LP together: its solutions are the valid inequalities of the hull; the hull depends on membership of points and rays only. | exact arithmetic (`Exact`) |
| C152 | BB, BBRepair | The repaired state is shown equal to the state of the step in which the child is recognized; by induction the whole history, so the theorems of C05 apply. | the disjunction is saved before the repair: undefined if the limit is reached then; wrong bounds if the solver has moved on; the process ends if the branching object does not know its object (theorems) |
| C153 | Collect, PRLP, Disj, Bounds | Every value reported to the disjunction is that of a point of the relaxation (the solution of a term, or the stored solution) that satisfies every cut by C03, so no bound with the cuts exceeds the least of them; the objective cut is a solution of the point-ray LP (C150, C151), and its structural form says that the objective is at least the reported value (C01, C67). | exact arithmetic as in C03; violated if the time limit is reached between the LP of a term and its collection (theorem) |
| C154 | TreePlot, TikzDraw | The correction is shown to change exactly the marks of explored nodes without children (induction over its loop, using that children have larger numbers); the recursion is shown to list the edges below a node in preorder, and in tables where every node but the root has exactly one edge into it each edge is met once (counting argument); both are applied to the tables of every history (C136). | closed searches in full; with open nodes if strong branching found no solution, otherwise a node is drawn twice (proved); the side on which a label is put and the text of the objective values are not covered |
| C155 | PRLP, Collect, NBSpace, Target | Scaling: a solution times c stays valid for c a little below 1 as long as no collected point lies on it (finitely many points), and for every c at least 1 (positive scale); so optimality, or extremality, forces a point onto the cut. The original variables by the exact slack of setCut and the coordinates of the collected LP optima. | Exact arithmetic as in C03 for the statements about the hull. |
| C156 | CutHelper, NBSpace, GenCut, Target | The exact slack of setCut at the point all of whose nonbasic coordinates are 0; induction over the row for the losses in removeSmallCoefficients; each loss at least 0 in the box and at most EPS_COEFF*R; lifted to runs by cuts_from_attempts. The negation by a solution computed by evaluation. | Violated: a cut that is collected although all points of the LP satisfy it. With no coefficient below EPS before cleaning exactly (NoTinyAt); in general with the contribution of the coefficients not stored (`CutsOffX`). |
| C157 | FloatCut, Float | Invariant (exact value, computed value, sum of moduli, number of operations) of one accumulation, carried through both loops for every column and the right-hand side; for every rounding with relative error u; `fl 53` is one. With the identity as rounding the functions are those of `NBSpace` and `CutHelper` (float_exact). | A valid inequality whose cut is invalid by rounding alone (rounding_cuts_off). Errors of the LP solver are the parameter d. `FloatRun` adds the tolerances of the collection and of the duplicate search (`errBound`): one bound from the disjunction to the cut handed out. `ErrorTol` adds the feasibility tolerance τ of the LP solver: at most (1+U)·K·T more, T bounding τ and R·τ. |

No property of the list was found inexpressible; what cannot be expressed in this model is listed as "not
modelled" above (rounding, solver internals, output formatting).
