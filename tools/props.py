import json
P=[]
def p(title, statement, quantifier, why, anchors):
    P.append(dict(id="C%02d"%(len(P)+1), title=title, statement=statement, quantifier=quantifier, why_tests_cant=why, anchors=anchors))
p("A cut means the same thing in nonbasic and in structural space",
  "The row cut handed back to the caller for a nonbasic-space inequality alpha*y >= beta has, at every structural point x of the LP (with the slacks implied by the rows), exactly the same signed slack as the nonbasic inequality has at the nonbasic coordinates of x; hence the two cut off exactly the same points.",
  "every LP (rows of type <= or >=), every set of nonbasic columns and rows, every assignment of at-lower/at-upper, every coefficient vector, every point x",
  "the identity is a statement about all points and all bases; a test samples one basis and a few points",
  [{"file":"src/utility/nbspace.cpp","symbols":["setCutFromNBCoefficients"]},{"file":"src/cut/PRLP.cpp","symbols":["PRLP::genCutHelper"]}])
p("Any solution of the point-ray LP is valid for the whole disjunctive hull",
  "If a coefficient vector satisfies every point row (alpha*p >= beta) and every ray row (alpha*r >= 0) of the point-ray LP, then alpha*x >= beta holds for every x in the union over disjunctive terms of (convex hull of the points) + (cone of the rays), and conversely a violated row exhibits a point of that set (or a ray direction) that is cut off.",
  "every finite collection of points and rays, any dimension, every coefficient vector, every point of the hull",
  "ranges over all convex and conic combinations of arbitrary collections",
  [{"file":"src/cut/CglVPC.cpp","symbols":["CglVPC::setupConstraints","CglVPC::genDepth1PRCollection"]},{"file":"src/cut/PRLP.cpp","symbols":["PRLP::setup"]}])
p("VPCs never cut off an integer-feasible point",
  "When the disjunction covers the integer-feasible set and each term contributes a vertex and rays whose cone contains the term's LP region, every cut returned to the caller is satisfied by every integer-feasible solution of the caller's MIP. (False when the code silently drops a term whose LP was not proven optimal; that must be visible.)",
  "every MIP, every disjunction, every optimal basis of every term, every objective used for the point-ray LP, every integer-feasible point",
  "validity must hold for every feasible point; a test only checks the points it knows",
  [{"file":"src/cut/CglVPC.cpp","symbols":["CglVPC::setupConstraints","CglVPC::tryObjectives"]},{"file":"src/cut/PRLP.cpp","symbols":["PRLP::genCutHelper"]}])
p("A split disjunction covers every integer point",
  "After preparing a split disjunction on a variable, every point that respects the original bounds and is integral in that variable satisfies all root bound changes recorded and at least one of the recorded terms, provided terms discarded as infeasible really are infeasible.",
  "every solver state, every integer variable, every fractional value, every outcome of the two one-sided LP solves, every feasible point",
  "quantifies over all integer-feasible points and LP outcomes",
  [{"file":"src/disjunction/SplitDisjunction.cpp","symbols":["SplitDisjunction::prepareDisjunction","SplitDisjunction::checkVar"]}])
p("The partial branch-and-bound disjunction covers every solution not pruned by bound",
  "The terms saved from a partial branch-and-bound tree, together with the recorded incumbent, cover every integer-feasible point except those in subtrees the solver pruned as infeasible or no better than the incumbent; when pruned nodes are kept, they cover every integer-feasible point.",
  "every branching history (any variables, values, directions, depth), every stopping point, every integer-feasible point",
  "the set of trees and stopping points is unbounded",
  [{"file":"src/branch/VPCEventHandler.cpp","symbols":["VPCEventHandler::event","VPCEventHandler::saveInformation","saveInformationFromStats","setNodeStatistics","setupDisjunctiveTermFromStats"]}])
p("Cleaning a problem preserves its integer-feasible solutions",
  "Bound tightening during cleaning never removes an integer-feasible solution and never adds one outside the original bounds except by undoing its own tightening; if the routine reports the problem was already clean, no bound changed.",
  "every LP relaxation answer consistent with the true feasible region, every variable order, every feasible point",
  "ranges over all MIPs and LP oracles",
  [{"file":"src/utility/preprocess.cpp","symbols":["cleanProblem"]}])
p("Dropping small coefficients only weakens a cut",
  "Zeroing small coefficients of a >= cut and adjusting the right-hand side by the variable's bound keeps the cut satisfied by every point within the column bounds that satisfied the original cut; coefficients that cannot be relaxed because the relevant bound is infinite are retained.",
  "every cut, every tolerance pair, every bound vector, every point inside the bounds",
  "validity over all points in a box",
  [{"file":"src/cut/CutHelper.cpp","symbols":["removeSmallCoefficients"]}])
p("A cut accepted by cleaning satisfies every acceptance test",
  "cleaning returns success only if the resulting cut has nonempty bounded support, is violated by the current solution by at least the configured amount when that check is requested, and has dynamism within the limit; each failure code identifies the first test that failed.",
  "every cut, solver solution, parameter setting",
  "decision logic over all inputs",
  [{"file":"src/cut/CutHelper.cpp","symbols":["cleanCut","badSupport","badViolation","badDynamism"]}])
p("Row comparison classifies parallel rows correctly",
  "Comparing two sparse rows reports 'different' only if they are not parallel (up to the tolerance at zero tolerance: not positive multiples), and otherwise reports which of the two >= rows is at least as strong (or that they agree); with exact arithmetic the reported stronger row implies the weaker one at every point.",
  "every pair of sparse rows sorted by index, every pair of right-hand sides, every point",
  "the implication is over all points",
  [{"file":"src/cut/CutHelper.cpp","symbols":["isRowDifferent","howDuplicate","isDuplicate"]}])
p("Deduplicating point-ray rows does not change the feasible region",
  "Removing duplicate rows while building the point-ray LP leaves its feasible region unchanged: each removed row is implied by a retained one. (The code violates this when the earlier row is the weaker one.)",
  "every collection of rows and every coefficient vector",
  "implication over all alpha and all collections",
  [{"file":"src/cut/PRLP.cpp","symbols":["PRLP::setup"]}])
p("Counters of tried objectives, cuts and failures are consistent",
  "At every moment the number of objectives tried equals the number of cuts generated plus the number of failures; the per-type, per-heuristic and per-failure tallies each sum to the corresponding total; there is exactly one cut type and one heuristic label stored per cut.",
  "every sequence of cut-generation attempts with every possible outcome of each attempt",
  "invariant of unbounded histories",
  [{"file":"src/cut/PRLP.cpp","symbols":["PRLP::genCut","PRLP::genCutHelper","PRLP::exitGenCutFromPRLP"]},{"file":"src/cut/CglVPC.cpp","symbols":["CglVPC::addCut"]}])
p("The cut limit is never exceeded by the main loop",
  "No generator loop starts another attempt after the cut limit is reached, so the number of cuts never exceeds the larger of the limit and the number present at the start; a limit of zero means no limit was requested.",
  "every limit, every sequence of attempts",
  "unbounded loop",
  [{"file":"src/cut/CglVPC.cpp","symbols":["CglVPC::reachedCutLimit","CglVPC::getCutLimit"]}])
p("The failure limit stops exactly the hopeless runs",
  "The failure-limit test is decided by the documented thresholds (few / moderate / many cuts and objectives), never fires while the failure ratio is below the least threshold and always fires once the ratio reaches the largest threshold after enough objectives.",
  "all numbers of cuts, failures and all limits",
  "piecewise thresholds over all naturals",
  [{"file":"src/cut/CglVPC.cpp","symbols":["CglVPC::reachedFailureLimit"]}])
p("Disjunction status maps one-to-one to the reported exit reason",
  "Each outcome of disjunction preparation is reported to the user as the exit reason of the same meaning, and no two different statuses are conflated.",
  "all statuses",
  "totality of a table and its consistency with enums in three classes",
  [{"file":"src/cut/CglVPC.cpp","symbols":["matchStatus"]},{"file":"include/common/Disjunction.hpp","symbols":["DisjExitReason"]}])
p("Tolerance comparisons form a trichotomy",
  "For a positive tolerance exactly one of 'less', 'equal within tolerance' and 'greater' holds for any two numbers; the infinity tests agree with the configured infinity values.",
  "all numbers and all positive tolerances",
  "all reals",
  [{"file":"include/common/utility.hpp","symbols":["lessThanVal","greaterThanVal","isVal","isZero","isInfinity","isNegInfinity"]}])
p("Timers account every started interval exactly once",
  "For any sequence of register/start/stop calls that starts and stops each timer alternately, the reported total equals the sum of the completed intervals (plus the running one where requested); registering an existing name is harmless; asking about an unknown name never alters other timers.",
  "every sequence of timer calls and every clock reading",
  "unbounded histories",
  [{"file":"include/common/TimeStats.hpp","symbols":["TimeStats::register_name","start_timer","end_timer","get_total_time","get_time"]}])
p("A surviving parameter value is always an allowed one",
  "After setting a numeric parameter, either the process stops with an error or the stored value lies within [min,max] (to tolerance) or in the list of allowed values.",
  "all values, ranges and allowed-value lists",
  "all values",
  [{"file":"include/VPCParameters.hpp","symbols":["Parameter::set","NumericParameter::check","val_is_allowed"]}])
p("Setting a parameter by name changes that parameter and no other",
  "Setting parameter N to V by string changes the parameter named N (case/underscore-insensitively) to the number V and leaves every other parameter unchanged; unknown names are rejected.",
  "all names, all value strings, all parameter stores",
  "all strings",
  [{"file":"include/VPCParameters.hpp","symbols":["VPCParameters::set","readParams"]}])
p("Branch-and-bound option bits can be toggled independently",
  "Enabling (disabling) an option makes exactly that option test true (false) and leaves every other option untouched; enable/disable are idempotent and commute for different options.",
  "all option words and all pairs of distinct options",
  "all 2^k words",
  [{"file":"include/VPCParameters.hpp","symbols":["use_bb_option","enable_bb_option","disable_bb_option"]}])
p("Command-line branch-and-bound switches control the option they name",
  "Each --bb_* command-line switch enables, disables or defaults exactly the branch-and-bound feature in its name.",
  "all argument values and all prior option words",
  "all option words",
  [{"file":"src/main.cpp","symbols":["processArgs"]}])
p("Incremental statistics equal batch statistics",
  "Updating finalized statistics (mean, standard deviation, min, max, ...) with a new batch gives the statistics of the concatenated data.",
  "all finite data sets, all splits",
  "all list pairs",
  [{"file":"src/utility/utility.cpp","symbols":["computeStats","updateAndFinalizeStats"]}])
p("File-name parsing recovers directory, instance and extension",
  "For every path dir/name.ext (optionally followed by .gz or .bz2) parsing returns exactly dir, name and ext; a path without an extension is rejected.",
  "all strings",
  "all strings",
  [{"file":"src/utility/utility.cpp","symbols":["parseFilename"]}])
p("A maximization problem is converted to an equivalent minimization problem",
  "Reading a maximization problem yields a minimization problem with the same optimal solutions whose objective value is the negative of the original at every point.",
  "all objectives, offsets and points",
  "all points",
  [{"file":"src/utility/SolverHelper.cpp","symbols":["initializeSolver"]}])
p("Setting the point-ray objective from a sparse vector sets exactly that objective",
  "After adding a scaled sparse vector to a zeroed objective, with or without a column-compression list, the objective coefficient of each retained column is the scaled entry of the vector and all others are unchanged.",
  "all sparse vectors, scalings, compression lists",
  "all vectors",
  [{"file":"src/utility/SolverHelper.cpp","symbols":["addToObjectiveFromPackedVector","setConstantObjectiveFromPackedVector"]}])
p("Dense and sparse cut representations round-trip",
  "Converting a dense cut to a sparse cut and back gives the same coefficients and right-hand side. (The code truncates coefficients in one direction.)",
  "all coefficient vectors",
  "all vectors",
  [{"file":"src/utility/VPCSolverInterface.cpp","symbols":["convertCutsToSparseCuts","convertCutsToDenseCuts"]}])
p("Objective flipping is an involution with the same optimizers",
  "Flipping the objective sense negates the objective value of every point, keeps the set of optimal points and, applied twice, restores the problem.",
  "all objectives and points",
  "all points",
  [{"file":"src/utility/VPCSolverInterface.cpp","symbols":["flipObj","maximize"]}])
p("Copying and reassigning generators never frees a disjunction twice or uses a freed one",
  "For any sequence of create/copy/assign/set-disjunction/destroy operations on cut generators and solver interfaces, every disjunction and point-ray LP object is freed at most once and never used after being freed. (Violated by several paths.)",
  "all operation sequences",
  "unbounded histories of ownership transfer",
  [{"file":"src/cut/CglVPC.cpp","symbols":["CglVPC::initialize","CglVPC::setDisjunction","CglVPC::~CglVPC"]},{"file":"src/utility/VPCSolverInterface.cpp","symbols":["setDisjunction","initialize"]}])
p("A set of disjunctions reports the best and worst bound over its members",
  "After any sequence of additions, the set's best objective is the minimum of the members' best objectives and the worst is the maximum of the members' worst objectives, and each member's position is its identifier.",
  "all sequences of additions",
  "unbounded sequences",
  [{"file":"src/disjunction/Disjunction.cpp","symbols":["DisjunctionSet::addDisjunction","updateObjValue"]}])
p("The LP built for a disjunctive term is the relaxation intersected with that term",
  "The solver built for a term has as feasible points exactly the points of the original relaxation that satisfy the common bound changes, the common inequalities, the term's bound changes and the term's inequalities.",
  "all solvers, disjunctions, terms and points",
  "set equality over all points",
  [{"file":"src/disjunction/Disjunction.cpp","symbols":["Disjunction::getSolverForTerm"]}])
p("Variable selection returns a candidate of maximal score",
  "Strong-branching selection keeps the candidate with lexicographically maximal (primary, tie-break) score among those processed and the runner-up for the second-best methods.",
  "all candidate lists and scores",
  "all lists",
  [{"file":"src/branch/OsiChooseStrongCustom.cpp","symbols":["OsiChooseStrongCustom::processObject","calculateValue","chooseVariable"]},{"file":"src/branch/CbcBranchStrongDecision.cpp","symbols":["CbcBranchStrongDecision::bestBranch"]}])
p("The strategy code decodes to its decimal digits",
  "A partial-branch-and-bound strategy number encodes (choose, branch, compare) strategies as hundreds, tens and ones digits with the sign attached to choose; decoding recovers all three for every encodable triple.",
  "all integers",
  "all integers",
  [{"file":"src/disjunction/PartialBBDisjunction.cpp","symbols":["getCbcStrategies"]}])
p("Breadth-first comparison explores shallower nodes first and is a strict weak order",
  "The breadth-first node comparison is irreflexive, transitive and prefers smaller depth, so the node pool is well defined.",
  "all nodes",
  "all triples",
  [{"file":"src/branch/CbcCompareBFS.cpp","symbols":["CbcCompareBFS::test"]}])
p("Reported round totals agree with the cuts collected",
  "Over any number of cut rounds the reported number of cuts equals the number of cuts in the returned collection; the loop stops at the first round without cuts, on time limit or when the problem is solved, and the number of rounds reported is the number performed.",
  "all numbers of rounds and all per-round outcomes",
  "unbounded rounds",
  [{"file":"src/main.cpp","symbols":["main"]}])
p("The number of saved terms equals the number of leaf nodes",
  "When the tree is saved successfully, the number of disjunctive terms equals the number of unexplored branches plus integer solutions found, less those discovered infeasible.",
  "all tree states",
  "all trees",
  [{"file":"src/branch/VPCEventHandler.cpp","symbols":["saveInformation","setupDisjunctiveTerm"]},{"file":"src/disjunction/PartialBBDisjunction.cpp","symbols":["prepareDisjunction"]}])
p("Only genuinely feasible integer solutions become incumbents",
  "An integer solution recorded during the partial tree satisfies every row of the original problem. (The row check is never executed.)",
  "all candidate solutions and rows",
  "all rows and points",
  [{"file":"src/branch/VPCEventHandler.cpp","symbols":["VPCEventHandler::event"]}])
p("Sparse vector addition is exact and sorted",
  "Summing two index-sorted sparse vectors with multipliers yields an index-sorted sparse vector whose entries are the exact linear combination, omitting only entries below tolerance.",
  "all sorted sparse vectors and multipliers",
  "all vectors",
  [{"file":"src/utility/utility.cpp","symbols":["packedSortedVectorSum"]}])
p("Compensated dot products are exact in exact arithmetic",
  "Every dot-product routine (dense, sparse, mixed) returns the mathematical inner product when arithmetic is exact.",
  "all vectors",
  "all vectors",
  [{"file":"src/utility/utility.cpp","symbols":["dotProduct"]}])
p("Scaling a ray preserves its direction",
  "The nonbasic-space ray stored for a term is a positive multiple of the true ray, so the cone is unchanged.",
  "all rays",
  "all vectors",
  [{"file":"src/utility/nbspace.cpp","symbols":["setCompNBCoorRay"]}])
p("At most the requested number of split disjunctions is generated, best first",
  "Generating split disjunctions returns at most the requested number, all on fractional integer variables with both sides feasible, in non-increasing order of the worse side's bound.",
  "all candidate variables and bounds",
  "all lists",
  [{"file":"src/disjunction/SplitDisjunction.cpp","symbols":["generateSplitDisjunctions"]}])
p("Nonbasic and basic variable indexing is invertible",
  "For every variable of the LP (structural or slack), the recorded row-of-variable table tells whether it is basic and where, and looking up the recorded position returns the variable.",
  "all bases",
  "all bases",
  [{"file":"src/cut/CglVPC.cpp","symbols":["CglVPC::getProblemData"]}])
p("A requested relative cut limit is resolved consistently",
  "A cut limit of zero means zero, a positive limit is absolute and a negative limit -k means k times the number of fractional variables; the resolution is the same in every round. (Violated: the resolved value overwrites the request.)",
  "all limits, all per-round fractional counts",
  "all histories",
  [{"file":"src/cut/CglVPC.cpp","symbols":["CglVPC::getCutLimit","CglVPC::generateCuts"]}])
p("Objective value lookup returns the first matching record",
  "Looking up an instance in the objective-value file returns the value of the first line whose instance name matches, and reports failure if there is none.",
  "all files",
  "all strings",
  [{"file":"src/utility/utility.cpp","symbols":["getObjValueFromFile"]}])
p("Applying cuts adds every requested cut exactly once and reports the count",
  "Applying a cut collection from a start index adds exactly the cuts in the requested range, in order, and the reported bound is that of the tightened LP (infinite if infeasible).",
  "all collections and ranges",
  "all lists",
  [{"file":"src/utility/SolverHelper.cpp","symbols":["applyCutsCustom","getObjValue"]},{"file":"src/utility/VPCSolverInterface.cpp","symbols":["applyCuts"]}])
p("Each nonbasic variable is at exactly one bound",
  "For nonbasic variables, the at-lower and at-upper tests used to complement coordinates are mutually exclusive and exhaustive over nonfree statuses, for structural and slack variables alike.",
  "all statuses, bounds and reduced costs",
  "all combinations",
  [{"file":"src/utility/SolverHelper.cpp","symbols":["isNonBasicLBVar","isNonBasicUBVar","isBasicVar"]}])
p("Re-preparing a disjunction replaces it",
  "Preparing the same disjunction object again leaves it with the terms of the last preparation only. (Violated for splits.)",
  "all preparation sequences",
  "all histories",
  [{"file":"src/disjunction/SplitDisjunction.cpp","symbols":["prepareDisjunction"]},{"file":"src/disjunction/Disjunction.cpp","symbols":["setupAsNew"]}])
with open("/verif/properties.jsonl","w") as f:
    for x in P: f.write(json.dumps(x)+"\n")
print(len(P))
