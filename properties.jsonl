{"id": "C01", "title": "A cut means the same thing in nonbasic and in structural space", "statement": "The row cut handed back to the caller for a nonbasic-space inequality alpha*y >= beta has, at every structural point x of the LP (with the slacks implied by the rows), exactly the same signed slack as the nonbasic inequality has at the nonbasic coordinates of x; hence the two cut off exactly the same points.", "quantifier": "every LP (rows of type <= or >=), every set of nonbasic columns and rows, every assignment of at-lower/at-upper, every coefficient vector, every point x", "why_tests_cant": "the identity is a statement about all points and all bases; a test samples one basis and a few points", "anchors": [{"file": "src/utility/nbspace.cpp", "symbols": ["setCutFromNBCoefficients"]}, {"file": "src/cut/PRLP.cpp", "symbols": ["PRLP::genCutHelper"]}]}
{"id": "C02", "title": "Any solution of the point-ray LP is valid for the whole disjunctive hull", "statement": "If a coefficient vector satisfies every point row (alpha*p >= beta) and every ray row (alpha*r >= 0) of the point-ray LP, then alpha*x >= beta holds for every x in the union over disjunctive terms of (convex hull of the points) + (cone of the rays), and conversely a violated row exhibits a point of that set (or a ray direction) that is cut off.", "quantifier": "every finite collection of points and rays, any dimension, every coefficient vector, every point of the hull", "why_tests_cant": "ranges over all convex and conic combinations of arbitrary collections", "anchors": [{"file": "src/cut/CglVPC.cpp", "symbols": ["CglVPC::setupConstraints", "CglVPC::genDepth1PRCollection"]}, {"file": "src/cut/PRLP.cpp", "symbols": ["PRLP::setup"]}]}
{"id": "C03", "title": "VPCs never cut off an integer-feasible point", "statement": "When the disjunction covers the integer-feasible set and each term contributes a vertex and rays whose cone contains the term's LP region, every cut returned to the caller is satisfied by every integer-feasible solution of the caller's MIP. (False when the code silently drops a term whose LP was not proven optimal; that must be visible.)", "quantifier": "every MIP, every disjunction, every optimal basis of every term, every objective used for the point-ray LP, every integer-feasible point", "why_tests_cant": "validity must hold for every feasible point; a test only checks the points it knows", "anchors": [{"file": "src/cut/CglVPC.cpp", "symbols": ["CglVPC::setupConstraints", "CglVPC::tryObjectives"]}, {"file": "src/cut/PRLP.cpp", "symbols": ["PRLP::genCutHelper"]}]}
{"id": "C04", "title": "A split disjunction covers every integer point", "statement": "After preparing a split disjunction on a variable, every point that respects the original bounds and is integral in that variable satisfies all root bound changes recorded and at least one of the recorded terms, provided terms discarded as infeasible really are infeasible.", "quantifier": "every solver state, every integer variable, every fractional value, every outcome of the two one-sided LP solves, every feasible point", "why_tests_cant": "quantifies over all integer-feasible points and LP outcomes", "anchors": [{"file": "src/disjunction/SplitDisjunction.cpp", "symbols": ["SplitDisjunction::prepareDisjunction", "SplitDisjunction::checkVar"]}]}
{"id": "C05", "title": "The partial branch-and-bound disjunction covers every solution not pruned by bound", "statement": "The terms saved from a partial branch-and-bound tree, together with the recorded incumbent, cover every integer-feasible point except those in subtrees the solver pruned as infeasible or no better than the incumbent; when pruned nodes are kept, they cover every integer-feasible point.", "quantifier": "every branching history (any variables, values, directions, depth), every stopping point, every integer-feasible point", "why_tests_cant": "the set of trees and stopping points is unbounded", "anchors": [{"file": "src/branch/VPCEventHandler.cpp", "symbols": ["VPCEventHandler::event", "VPCEventHandler::saveInformation", "saveInformationFromStats", "setNodeStatistics", "setupDisjunctiveTermFromStats"]}]}
{"id": "C06", "title": "Cleaning a problem preserves its integer-feasible solutions", "statement": "Bound tightening during cleaning never removes an integer-feasible solution and never adds one outside the original bounds except by undoing its own tightening; if the routine reports the problem was already clean, no bound changed.", "quantifier": "every LP relaxation answer consistent with the true feasible region, every variable order, every feasible point", "why_tests_cant": "ranges over all MIPs and LP oracles", "anchors": [{"file": "src/utility/preprocess.cpp", "symbols": ["cleanProblem"]}]}
{"id": "C07", "title": "Dropping small coefficients only weakens a cut", "statement": "Zeroing small coefficients of a >= cut and adjusting the right-hand side by the variable's bound keeps the cut satisfied by every point within the column bounds that satisfied the original cut; coefficients that cannot be relaxed because the relevant bound is infinite are retained.", "quantifier": "every cut, every tolerance pair, every bound vector, every point inside the bounds", "why_tests_cant": "validity over all points in a box", "anchors": [{"file": "src/cut/CutHelper.cpp", "symbols": ["removeSmallCoefficients"]}]}
{"id": "C08", "title": "A cut accepted by cleaning satisfies every acceptance test", "statement": "cleaning returns success only if the resulting cut has nonempty bounded support, is violated by the current solution by at least the configured amount when that check is requested, and has dynamism within the limit; each failure code identifies the first test that failed.", "quantifier": "every cut, solver solution, parameter setting", "why_tests_cant": "decision logic over all inputs", "anchors": [{"file": "src/cut/CutHelper.cpp", "symbols": ["cleanCut", "badSupport", "badViolation", "badDynamism"]}]}
{"id": "C09", "title": "Row comparison classifies parallel rows correctly", "statement": "Comparing two sparse rows reports 'different' only if they are not parallel (up to the tolerance at zero tolerance: not positive multiples), and otherwise reports which of the two >= rows is at least as strong (or that they agree); with exact arithmetic the reported stronger row implies the weaker one at every point.", "quantifier": "every pair of sparse rows sorted by index, every pair of right-hand sides, every point", "why_tests_cant": "the implication is over all points", "anchors": [{"file": "src/cut/CutHelper.cpp", "symbols": ["isRowDifferent", "howDuplicate", "isDuplicate"]}]}
{"id": "C10", "title": "Deduplicating point-ray rows does not change the feasible region", "statement": "Removing duplicate rows while building the point-ray LP leaves its feasible region unchanged: each removed row is implied by a retained one. (The code violates this when the earlier row is the weaker one.)", "quantifier": "every collection of rows and every coefficient vector", "why_tests_cant": "implication over all alpha and all collections", "anchors": [{"file": "src/cut/PRLP.cpp", "symbols": ["PRLP::setup"]}]}
{"id": "C11", "title": "Counters of tried objectives, cuts and failures are consistent", "statement": "At every moment the number of objectives tried equals the number of cuts generated plus the number of failures; the per-type, per-heuristic and per-failure tallies each sum to the corresponding total; there is exactly one cut type and one heuristic label stored per cut.", "quantifier": "every sequence of cut-generation attempts with every possible outcome of each attempt", "why_tests_cant": "invariant of unbounded histories", "anchors": [{"file": "src/cut/PRLP.cpp", "symbols": ["PRLP::genCut", "PRLP::genCutHelper", "PRLP::exitGenCutFromPRLP"]}, {"file": "src/cut/CglVPC.cpp", "symbols": ["CglVPC::addCut"]}]}
{"id": "C12", "title": "The cut limit is never exceeded by the main loop", "statement": "No generator loop starts another attempt after the cut limit is reached, so the number of cuts never exceeds the larger of the limit and the number present at the start; a limit of zero means no limit was requested.", "quantifier": "every limit, every sequence of attempts", "why_tests_cant": "unbounded loop", "anchors": [{"file": "src/cut/CglVPC.cpp", "symbols": ["CglVPC::reachedCutLimit", "CglVPC::getCutLimit"]}]}
{"id": "C13", "title": "The failure limit stops exactly the hopeless runs", "statement": "The failure-limit test is decided by the documented thresholds (few / moderate / many cuts and objectives): it never fires while the failure ratio is below the least threshold, unless the LP solves are slow (many objectives, more than ten seconds in total, average at least the PRLP time limit), and always fires once the ratio reaches the largest threshold after enough objectives.", "quantifier": "all numbers of cuts, failures and all limits", "why_tests_cant": "piecewise thresholds over all naturals", "anchors": [{"file": "src/cut/CglVPC.cpp", "symbols": ["CglVPC::reachedFailureLimit"]}]}
{"id": "C14", "title": "Disjunction status maps one-to-one to the reported exit reason", "statement": "Each outcome of disjunction preparation is reported to the user as the exit reason of the same meaning, and no two different statuses are conflated.", "quantifier": "all statuses", "why_tests_cant": "totality of a table and its consistency with enums in three classes", "anchors": [{"file": "src/cut/CglVPC.cpp", "symbols": ["matchStatus"]}, {"file": "include/common/Disjunction.hpp", "symbols": ["DisjExitReason"]}]}
{"id": "C15", "title": "Tolerance comparisons form a trichotomy", "statement": "For a positive tolerance exactly one of 'less', 'equal within tolerance' and 'greater' holds for any two numbers; the infinity tests agree with the configured infinity values.", "quantifier": "all numbers and all positive tolerances", "why_tests_cant": "all reals", "anchors": [{"file": "include/common/utility.hpp", "symbols": ["lessThanVal", "greaterThanVal", "isVal", "isZero", "isInfinity", "isNegInfinity"]}]}
{"id": "C16", "title": "Timers account every started interval exactly once", "statement": "For any sequence of register/start/stop calls that starts and stops each timer alternately, the reported total equals the sum of the completed intervals (plus the running one where requested); registering an existing name is harmless; asking about an unknown name never alters other timers.", "quantifier": "every sequence of timer calls and every clock reading", "why_tests_cant": "unbounded histories", "anchors": [{"file": "include/common/TimeStats.hpp", "symbols": ["TimeStats::register_name", "start_timer", "end_timer", "get_total_time", "get_time"]}]}
{"id": "C17", "title": "A surviving parameter value is always an allowed one", "statement": "After setting a numeric parameter, either the process stops with an error or the stored value lies within [min,max] (to tolerance) or in the list of allowed values.", "quantifier": "all values, ranges and allowed-value lists", "why_tests_cant": "all values", "anchors": [{"file": "include/VPCParameters.hpp", "symbols": ["Parameter::set", "NumericParameter::check", "val_is_allowed"]}]}
{"id": "C18", "title": "Setting a parameter by name changes that parameter and no other", "statement": "Setting parameter N to V by string changes the parameter named N (case/underscore-insensitively) to the number V and leaves every other parameter unchanged; unknown names are rejected.", "quantifier": "all names, all value strings, all parameter stores", "why_tests_cant": "all strings", "anchors": [{"file": "include/VPCParameters.hpp", "symbols": ["VPCParameters::set", "readParams"]}]}
{"id": "C19", "title": "Branch-and-bound option bits can be toggled independently", "statement": "Enabling (disabling) an option makes exactly that option test true (false) and leaves every other option untouched; enable/disable are idempotent and commute for different options.", "quantifier": "all option words and all pairs of distinct options", "why_tests_cant": "all 2^k words", "anchors": [{"file": "include/VPCParameters.hpp", "symbols": ["use_bb_option", "enable_bb_option", "disable_bb_option"]}]}
{"id": "C20", "title": "Command-line branch-and-bound switches control the option they name", "statement": "Each --bb_* command-line switch enables, disables or defaults exactly the branch-and-bound feature in its name.", "quantifier": "all argument values and all prior option words", "why_tests_cant": "all option words", "anchors": [{"file": "src/main.cpp", "symbols": ["processArgs"]}]}
{"id": "C21", "title": "Incremental statistics equal batch statistics", "statement": "Updating finalized statistics (mean, standard deviation, min, max, ...) with a new batch gives the statistics of the concatenated data.", "quantifier": "all finite data sets, all splits", "why_tests_cant": "all list pairs", "anchors": [{"file": "src/utility/utility.cpp", "symbols": ["computeStats", "updateAndFinalizeStats"]}]}
{"id": "C22", "title": "File-name parsing recovers directory, instance and extension", "statement": "For every path dir/name.ext (optionally followed by .gz or .bz2) parsing returns exactly dir, name and ext; a path without an extension is rejected.", "quantifier": "all strings", "why_tests_cant": "all strings", "anchors": [{"file": "src/utility/utility.cpp", "symbols": ["parseFilename"]}]}
{"id": "C23", "title": "A maximization problem is converted to an equivalent minimization problem", "statement": "Reading a maximization problem yields a minimization problem with the same optimal solutions whose objective value is the negative of the original at every point.", "quantifier": "all objectives, offsets and points", "why_tests_cant": "all points", "anchors": [{"file": "src/utility/SolverHelper.cpp", "symbols": ["initializeSolver"]}]}
{"id": "C24", "title": "Setting the point-ray objective from a sparse vector sets exactly that objective", "statement": "After adding a scaled sparse vector to a zeroed objective, with or without a column-compression list, the objective coefficient of each retained column is the scaled entry of the vector and all others are unchanged.", "quantifier": "all sparse vectors, scalings, compression lists", "why_tests_cant": "all vectors", "anchors": [{"file": "src/utility/SolverHelper.cpp", "symbols": ["addToObjectiveFromPackedVector", "setConstantObjectiveFromPackedVector"]}]}
{"id": "C25", "title": "Dense and sparse cut representations round-trip", "statement": "Converting a dense cut to a sparse cut and back gives the same coefficients and right-hand side. (The code truncates coefficients in one direction.)", "quantifier": "all coefficient vectors", "why_tests_cant": "all vectors", "anchors": [{"file": "src/utility/VPCSolverInterface.cpp", "symbols": ["convertCutsToSparseCuts", "convertCutsToDenseCuts"]}]}
{"id": "C26", "title": "Objective flipping is an involution with the same optimizers", "statement": "Flipping the objective sense negates the objective value of every point, keeps the set of optimal points and, applied twice, restores the problem.", "quantifier": "all objectives and points", "why_tests_cant": "all points", "anchors": [{"file": "src/utility/VPCSolverInterface.cpp", "symbols": ["flipObj", "maximize"]}]}
{"id": "C27", "title": "Copying and reassigning generators never frees a disjunction twice or uses a freed one", "statement": "For any sequence of create/copy/assign/set-disjunction/destroy operations on cut generators and solver interfaces, every disjunction and point-ray LP object is freed at most once and never used after being freed. (Violated by several paths.)", "quantifier": "all operation sequences", "why_tests_cant": "unbounded histories of ownership transfer", "anchors": [{"file": "src/cut/CglVPC.cpp", "symbols": ["CglVPC::initialize", "CglVPC::setDisjunction", "CglVPC::~CglVPC"]}, {"file": "src/utility/VPCSolverInterface.cpp", "symbols": ["setDisjunction", "initialize"]}]}
{"id": "C28", "title": "A set of disjunctions reports the best and worst bound over its members", "statement": "After any sequence of additions, the set's best objective is the minimum of the members' best objectives and the worst is the maximum of the members' worst objectives, and each member's position is its identifier. The bounds of one disjunction after points and rays have been collected are the least and the greatest of the values of the stored integer solution and of the terms that could be solved.", "quantifier": "all sequences of additions", "why_tests_cant": "unbounded sequences", "anchors": [{"file": "src/disjunction/Disjunction.cpp", "symbols": ["DisjunctionSet::addDisjunction", "updateObjValue"]}]}
{"id": "C29", "title": "The LP built for a disjunctive term is the relaxation intersected with that term", "statement": "The solver built for a term has as feasible points exactly the points of the original relaxation that satisfy the common bound changes, the common inequalities, the term's bound changes and the term's inequalities.", "quantifier": "all solvers, disjunctions, terms and points", "why_tests_cant": "set equality over all points", "anchors": [{"file": "src/disjunction/Disjunction.cpp", "symbols": ["Disjunction::getSolverForTerm"]}]}
{"id": "C30", "title": "Variable selection returns a candidate of maximal score", "statement": "Strong-branching selection keeps the candidate with lexicographically maximal (primary, tie-break) score among those processed and the runner-up for the second-best methods.", "quantifier": "all candidate lists and scores", "why_tests_cant": "all lists", "anchors": [{"file": "src/branch/OsiChooseStrongCustom.cpp", "symbols": ["OsiChooseStrongCustom::processObject", "calculateValue", "chooseVariable"]}, {"file": "src/branch/CbcBranchStrongDecision.cpp", "symbols": ["CbcBranchStrongDecision::bestBranch"]}]}
{"id": "C31", "title": "The strategy code decodes to its decimal digits", "statement": "A partial-branch-and-bound strategy number encodes (choose, branch, compare) strategies as hundreds, tens and ones digits with the sign attached to choose; decoding recovers all three for every encodable triple.", "quantifier": "all integers", "why_tests_cant": "all integers", "anchors": [{"file": "src/disjunction/PartialBBDisjunction.cpp", "symbols": ["getCbcStrategies"]}]}
{"id": "C32", "title": "Breadth-first comparison explores shallower nodes first and is a strict weak order", "statement": "The breadth-first node comparison is irreflexive, transitive and prefers smaller depth, so the node pool is well defined.", "quantifier": "all nodes", "why_tests_cant": "all triples", "anchors": [{"file": "src/branch/CbcCompareBFS.cpp", "symbols": ["CbcCompareBFS::test"]}]}
{"id": "C33", "title": "Reported round totals agree with the cuts collected", "statement": "Over any number of cut rounds the reported number of cuts equals the number of cuts in the returned collection; the loop stops at the first round without cuts, on time limit or when the problem is solved, and the number of rounds reported is the number performed.", "quantifier": "all numbers of rounds and all per-round outcomes", "why_tests_cant": "unbounded rounds", "anchors": [{"file": "src/main.cpp", "symbols": ["main"]}]}
{"id": "C34", "title": "The number of saved terms equals the number of leaf nodes", "statement": "When the tree is saved successfully, the number of disjunctive terms equals the number of unexplored branches plus integer solutions found, less those discovered infeasible.", "quantifier": "all tree states", "why_tests_cant": "all trees", "anchors": [{"file": "src/branch/VPCEventHandler.cpp", "symbols": ["saveInformation", "setupDisjunctiveTerm"]}, {"file": "src/disjunction/PartialBBDisjunction.cpp", "symbols": ["prepareDisjunction"]}]}
{"id": "C35", "title": "Only genuinely feasible integer solutions become incumbents", "statement": "An integer solution recorded during the partial tree satisfies every row of the original problem. (The row check is never executed.)", "quantifier": "all candidate solutions and rows", "why_tests_cant": "all rows and points", "anchors": [{"file": "src/branch/VPCEventHandler.cpp", "symbols": ["VPCEventHandler::event"]}]}
{"id": "C36", "title": "Sparse vector addition is exact and sorted", "statement": "Summing two index-sorted sparse vectors with multipliers yields an index-sorted sparse vector whose entries are the exact linear combination, omitting only entries below tolerance.", "quantifier": "all sorted sparse vectors and multipliers", "why_tests_cant": "all vectors", "anchors": [{"file": "src/utility/utility.cpp", "symbols": ["packedSortedVectorSum"]}]}
{"id": "C37", "title": "Compensated dot products are exact in exact arithmetic", "statement": "Every dot-product routine (dense, sparse, mixed) returns the mathematical inner product when arithmetic is exact.", "quantifier": "all vectors", "why_tests_cant": "all vectors", "anchors": [{"file": "src/utility/utility.cpp", "symbols": ["dotProduct"]}]}
{"id": "C38", "title": "Scaling a ray preserves its direction", "statement": "The nonbasic-space ray stored for a term is a positive multiple of the true ray, so the cone is unchanged.", "quantifier": "all rays", "why_tests_cant": "all vectors", "anchors": [{"file": "src/utility/nbspace.cpp", "symbols": ["setCompNBCoorRay"]}]}
{"id": "C39", "title": "At most the requested number of split disjunctions is generated, best first", "statement": "Generating split disjunctions returns at most the requested number, all on fractional integer variables with both sides feasible, in non-increasing order of the worse side's bound.", "quantifier": "all candidate variables and bounds", "why_tests_cant": "all lists", "anchors": [{"file": "src/disjunction/SplitDisjunction.cpp", "symbols": ["generateSplitDisjunctions"]}]}
{"id": "C40", "title": "Nonbasic and basic variable indexing is invertible", "statement": "For every variable of the LP (structural or slack), the recorded row-of-variable table tells whether it is basic and where, and looking up the recorded position returns the variable.", "quantifier": "all bases", "why_tests_cant": "all bases", "anchors": [{"file": "src/cut/CglVPC.cpp", "symbols": ["CglVPC::getProblemData"]}]}
{"id": "C41", "title": "A requested relative cut limit is resolved consistently", "statement": "A cut limit of zero means zero, a positive limit is absolute and a negative limit -k means k times the number of fractional variables; the resolution is the same in every round. (Violated: the resolved value overwrites the request.)", "quantifier": "all limits, all per-round fractional counts", "why_tests_cant": "all histories", "anchors": [{"file": "src/cut/CglVPC.cpp", "symbols": ["CglVPC::getCutLimit", "CglVPC::generateCuts"]}]}
{"id": "C42", "title": "Objective value lookup returns the first matching record", "statement": "Looking up an instance in the objective-value file returns the value of the first line whose instance name matches, and reports failure if there is none.", "quantifier": "all files", "why_tests_cant": "all strings", "anchors": [{"file": "src/utility/utility.cpp", "symbols": ["getObjValueFromFile"]}]}
{"id": "C43", "title": "Applying cuts adds every requested cut exactly once and reports the count", "statement": "Applying a cut collection from a start index adds exactly the cuts in the requested range, in order, and the reported bound is that of the tightened LP (infinite if infeasible).", "quantifier": "all collections and ranges", "why_tests_cant": "all lists", "anchors": [{"file": "src/utility/SolverHelper.cpp", "symbols": ["applyCutsCustom", "getObjValue"]}, {"file": "src/utility/VPCSolverInterface.cpp", "symbols": ["applyCuts"]}]}
{"id": "C44", "title": "Each nonbasic variable is at exactly one bound", "statement": "For nonbasic variables, the at-lower and at-upper tests used to complement coordinates are mutually exclusive and exhaustive over nonfree statuses, for structural and slack variables alike.", "quantifier": "all statuses, bounds and reduced costs", "why_tests_cant": "all combinations", "anchors": [{"file": "src/utility/SolverHelper.cpp", "symbols": ["isNonBasicLBVar", "isNonBasicUBVar", "isBasicVar"]}]}
{"id": "C45", "title": "Re-preparing a disjunction replaces it", "statement": "Preparing the same disjunction object again leaves it with the terms of the last preparation only. (Violated for splits, and for trees whose search ends before the tree is saved.)", "quantifier": "all preparation sequences", "why_tests_cant": "all histories", "anchors": [{"file": "src/disjunction/SplitDisjunction.cpp", "symbols": ["prepareDisjunction"]}, {"file": "src/disjunction/Disjunction.cpp", "symbols": ["setupAsNew"]}]}
{"id": "C46", "title": "Sparse nonbasic coordinates list each nonzero exactly once, in order", "statement": "The sparse representation of a point or ray in the nonbasic space has an entry for exactly those nonbasic variables whose complemented coordinate is not (numerically) zero, no index occurs twice, the values are the coordinates, and the indices are increasing as the row-comparison code requires. (The order is violated for points with nonzero slack coordinates when slack positions precede structural ones.)", "quantifier": "all solver states and points", "why_tests_cant": "all sizes and sparsity patterns", "anchors": [{"file": "src/utility/nbspace.cpp", "symbol": "setCompNBCoorPoint"}, {"file": "src/utility/nbspace.cpp", "symbol": "setCompNBCoorRay"}]}
{"id": "C47", "title": "Setting up the point-ray LP aborts only on inconsistent collections", "statement": "If there is a cut satisfying all the points and rays of the collection then building the point-ray LP does not terminate the process. (Violated: a row without coefficients but a satisfiable right-hand side is treated as infeasible.)", "quantifier": "all point-ray collections", "why_tests_cant": "all collections including rows at the origin", "anchors": [{"file": "src/cut/PRLP.cpp", "symbol": "setup"}]}
{"id": "C48", "title": "The objective cut added when the disjunction is integer optimal is valid", "statement": "When every disjunctive term is an integer-feasible leaf, the objective cut that is added is satisfied by every integer-feasible point.", "quantifier": "all problems and disjunctions", "why_tests_cant": "all objective vectors, including ones with tiny coefficients", "anchors": [{"file": "src/cut/CglVPC.cpp", "symbol": "generateCuts"}]}
{"id": "C49", "title": "Objectives supplied by the user are tried", "statement": "Objectives handed to the generator before generating cuts are each tried on the point-ray LP. (Violated: they are discarded when generation starts.)", "quantifier": "all generators, objective lists and problems", "why_tests_cant": "all call histories", "anchors": [{"file": "src/cut/CglVPC.cpp", "symbol": "setUserObjectives"}, {"file": "src/cut/CglVPC.cpp", "symbol": "setupAsNew"}]}
{"id": "C50", "title": "Cuts already in the collection are left alone", "statement": "Unless replacing given cuts has been allowed, the cuts passed to the generator stay in the collection unchanged and in place, and new cuts come after them.", "quantifier": "all runs of the cut loop, all solver answers", "why_tests_cant": "all histories of objectives, replacements and limits", "anchors": [{"file": "src/cut/PRLP.cpp", "symbol": "genCutHelper"}, {"file": "src/cut/CglVPC.cpp", "symbol": "generateCuts"}]}
{"id": "C51", "title": "Integer arguments are read as the number they spell", "statement": "Text is accepted as an integer argument exactly when it is an optionally signed decimal number (blanks allowed in front), and the value used is the number it spells. (Violated: numbers that do not fit in an int are accepted and wrapped.)", "quantifier": "all argument strings", "why_tests_cant": "infinitely many strings, boundary only at 2^31 and 2^63", "anchors": [{"file": "src/utility/utility.cpp", "symbol": "parseInt"}, {"file": "src/utility/utility.cpp", "symbol": "parseLong"}]}
{"id": "C52", "title": "Each plain command-line option sets the parameter of its name", "statement": "A plain integer option given the text of a documented value sets exactly the parameter of the same name to that value; text that is no integer and values that are not documented stop the process; a tikz sub-option turns on tikz output and keeps other temporary options.", "quantifier": "all parameter states, options and argument texts", "why_tests_cant": "all states and arguments", "anchors": [{"file": "src/main.cpp", "symbol": "processArgs"}]}
{"id": "C53", "title": "Timer names can be looked up and printed", "statement": "Looking up the name of a registered timer terminates and returns the name it was registered under, and printing all timers terminates and prints each once. (Violated: the lookup loop never advances, so anything but the first timer in map order hangs.)", "quantifier": "all sets of registered timers and all indices", "why_tests_cant": "non-termination for all but one timer per state; all states", "anchors": [{"file": "include/common/TimeStats.hpp", "symbol": "get_name"}, {"file": "include/common/TimeStats.hpp", "symbol": "print"}]}
{"id": "C54", "title": "A solution file is read value by value", "statement": "Reading a solution file yields, in file order, the value of every data line `name value`, skipping comments and empty lines, and forgets what the output held before; an unreadable file stops the process. (Violated: two blanks between name and value silently record 0.)", "quantifier": "all files", "why_tests_cant": "all file contents", "anchors": [{"file": "src/utility/utility.cpp", "symbol": "getSolFromFile"}]}
{"id": "C55", "title": "Loading problem data yields the described minimization problem", "statement": "Loading a problem description gives a solver whose variables have the described bounds and integrality (binaries are integers in [0,1]) and whose objective is the described one, converted to minimization, including its constant. (Violated: the objective offset is ignored.)", "quantifier": "all problem descriptions", "why_tests_cant": "all descriptions: any mix of variable types, senses and offsets", "anchors": [{"file": "src/utility/VPCSolverInterface.cpp", "symbol": "load"}, {"file": "include/common/OsiProblemData.hpp", "symbol": "OsiProblemData"}]}
{"id": "C56", "title": "The optimality check reports the solver's final status with bounded work", "statement": "After checking a solver for optimality, the answer is exactly whether the solver is proven optimal at that moment; the process is stopped only if the caller asked for it and the LP is dual infeasible; the number of solver calls is bounded by the allowed number of re-solves plus a constant, and rows and bounds are untouched.", "quantifier": "all solver behaviours (every sequence of statuses a solver may report), all limits", "why_tests_cant": "depends on adversarial solver statuses and numerical residues that no test can enumerate", "anchors": [{"file": "src/utility/SolverHelper.cpp", "symbol": "checkSolverOptimality"}]}
{"id": "C57", "title": "Solving from a hot start leaves the problem as the caller set it", "statement": "When a bound has been changed and the LP is solved from a hot start (including the retry and fallback paths), all bounds are afterwards what they were at the call, a hot start is in place again, none is used before it is marked, and the violation counter grows by at most two.", "quantifier": "all solver behaviours, all limits and counters", "why_tests_cant": "the retry path runs only when the solver hits its iteration limit", "anchors": [{"file": "src/utility/SolverHelper.cpp", "symbol": "solveFromHotStart"}]}
{"id": "C58", "title": "A term whose objective cannot be reproduced is rejected", "statement": "When the LP of a disjunctive term is rebuilt and its optimal value deviates from the recorded one by more than three percent, the process stops with an error; smaller deviations are accepted with a warning. (Violated for values of opposite sign.)", "quantifier": "all recorded and recomputed objective values and tolerances", "why_tests_cant": "all pairs of values", "anchors": [{"file": "src/disjunction/Disjunction.cpp", "symbols": ["Disjunction::getSolverForTerm"]}]}
{"id": "C59", "title": "Preparing a set prepares its members in order and reports their values", "statement": "Preparing a set of disjunctions prepares the members in order, stops at the first that finds an optimal solution, returns the last exit reason, and afterwards the set's best and worst values are those of its members. (Values of an earlier preparation survive.)", "quantifier": "all sets and all outcomes of preparing each member", "why_tests_cant": "all sequences of outcomes", "anchors": [{"file": "src/disjunction/Disjunction.cpp", "symbols": ["DisjunctionSet::prepareDisjunction", "DisjunctionSet::updateObjValue"]}]}
{"id": "C60", "title": "The bounds of the root split are the best of each side", "statement": "After a partial branch-and-bound disjunction is prepared, the bound it reports for the down (up) side of the root split is the smallest objective value over the terms on that side. (Violated: only one side is ever updated for the children of the root.)", "quantifier": "all branch-and-bound histories and all LP answers", "why_tests_cant": "all histories and saves; the reported bound is not otherwise observable", "anchors": [{"file": "src/branch/VPCEventHandler.cpp", "symbols": ["VPCEventHandler::setupDisjunctiveTerm"]}]}
{"id": "C61", "title": "Every improving integer solution announced in the partial tree is recorded", "statement": "When the solver announces, while the partial tree is generated, a feasible integer solution better than the cutoff, that solution and its value are recorded as a term of the disjunction; only announced, improving solutions are ever recorded. (Violated when the node survives the new cutoff.)", "quantifier": "all states of the handler and all announced solutions", "why_tests_cant": "depends on solver heuristics and strong branching", "anchors": [{"file": "src/branch/VPCEventHandler.cpp", "symbols": ["VPCEventHandler::event"]}]}
{"id": "C62", "title": "Cleaning reports how many bounds it changed", "statement": "The number of changed bounds reported by cleaning is the number of bounds of the returned problem that differ from the input. (Violated: a bound changed twice is counted twice; what holds is that no change goes uncounted.)", "quantifier": "all problems and all LP answers", "why_tests_cant": "all problems and LP oracles", "anchors": [{"file": "src/utility/preprocess.cpp", "symbols": ["cleanProblem"]}]}
{"id": "C63", "title": "A disjunction supplied by the caller is used to generate cuts", "statement": "When the caller gives the cut generator a disjunction and asks for cuts, the generator uses that disjunction. (Violated: generation then never succeeds, it terminates the process whenever the work gets far enough, and otherwise no cut is produced.)", "quantifier": "all configurations, problems, disjunctions and solver answers", "why_tests_cant": "all disjunctions and all LP outcomes", "anchors": [{"file": "src/cut/CglVPC.cpp", "symbols": ["CglVPC::setDisjunction", "CglVPC::generateCuts"]}, {"file": "src/main.cpp", "symbols": ["main"]}]}
{"id": "C64", "title": "The round number given to the generator reaches the disjunction", "statement": "The number of the cut round the caller sets on the generator is the one used when cuts are generated (e.g. to name files per round). (Violated: it is reset to zero.)", "quantifier": "all configurations and round numbers", "why_tests_cant": "all round numbers and configurations", "anchors": [{"file": "src/cut/CglVPC.cpp", "symbols": ["CglVPC::generateCuts", "CglVPC::setupAsNew"]}]}
{"id": "C65", "title": "Every documented mode and option yields a result", "statement": "For every documented mode and every option value accepted by the parameter setter, a call to generate cuts returns a result. (Violated for crosses, custom mode without disjunction, the flipped right-hand side and too small or negative term numbers; proved for the rest.)", "quantifier": "all modes, option values and solver answers", "why_tests_cant": "all combinations of options and answers", "anchors": [{"file": "src/cut/CglVPC.cpp", "symbols": ["CglVPC::generateCuts", "CglVPC::tryObjectives"]}]}
{"id": "C66", "title": "The reported exit reason of trying objectives is true", "statement": "The exit reason reported after trying objectives agrees with the facts: a cut limit is reported only if it was reached, and success is reported only if neither time, nor cut, nor failure limit applies.", "quantifier": "all histories of objective attempts", "why_tests_cant": "all histories", "anchors": [{"file": "src/cut/CglVPC.cpp", "symbols": ["CglVPC::tryObjectives"]}]}
{"id": "C67", "title": "Nonbasic reduced costs are nonnegative at an optimal basis", "statement": "For an optimal basis, the cost recorded in the nonbasic space of each nonbasic variable is nonnegative (within tolerance for fixed variables); the process is ended exactly if a recorded cost is significantly negative, and never otherwise.", "quantifier": "all optimal bases, dual values and tolerances", "why_tests_cant": "all bases", "anchors": [{"file": "src/cut/CglVPC.cpp", "symbols": ["CglVPC::getProblemData"]}, {"file": "src/utility/SolverHelper.cpp", "symbols": ["isNonBasicUBCol", "isNonBasicUBSlack"]}]}
{"id": "C68", "title": "The instance tolerance is positive and never larger than the parameter", "statement": "The tolerance derived from the magnitudes in an instance is positive, at most the tolerance parameter and at most the ratio of any two nonzero magnitudes among bounds, right-hand sides and the LP value; the reported extreme coefficients bound all matrix elements. (Undefined for an empty matrix.)", "quantifier": "all instances", "why_tests_cant": "all coefficient vectors", "anchors": [{"file": "src/cut/CglVPC.cpp", "symbols": ["CglVPC::getProblemData"]}]}
{"id": "C69", "title": "Cuts made from changes common to all terms say exactly that", "statement": "Before terms are treated, the bound changes and inequalities common to all terms of a disjunction are applied and returned as cuts: each returned cut is equivalent to the common change it comes from and passes the violation test, none is lost unless the cut limit is reached, and the LP used afterwards is the problem with exactly these changes.", "quantifier": "all disjunctions, cut limits, violation tests and LP answers", "why_tests_cant": "all lists of common changes and all limits", "anchors": [{"file": "src/cut/CglVPC.cpp", "symbols": ["CglVPC::initializeSolverWithRootChanges", "CglVPC::addCut"]}]}
{"id": "C70", "title": "A term or root whose LP value does not match the recorded one is rejected", "statement": "If the disjunction records a finite objective value for a term (or the root), then the value obtained when the term is solved again for collecting points agrees with it up to the tolerance or 3 percent; otherwise the process is ended. (Violated for values of opposite sign, which are always accepted.)", "quantifier": "all recorded and recomputed values", "why_tests_cant": "all pairs of values", "anchors": [{"file": "src/cut/CglVPC.cpp", "symbols": ["CglVPC::setupConstraints", "CglVPC::initializeSolverWithRootChanges"]}]}
{"id": "C71", "title": "A repeated point-ray LP solution yields no second cut; a new one is tried", "statement": "If the point-ray LP returns the same solution as the previous objective did (every coordinate within the tolerance), no cut is made and a duplicate is reported; if the solution differs in some coordinate, or there is no previous one, it is converted to a cut and judged on its merits.", "quantifier": "all pairs of consecutive LP solutions, all pools", "why_tests_cant": "all solutions", "anchors": [{"file": "src/cut/PRLP.cpp", "symbols": ["PRLP::genCut"]}]}
{"id": "C72", "title": "Collected cuts are pairwise different and not nearly parallel", "statement": "The cuts collected in one generation are pairwise different (no two are positive multiples of each other), and when a minimal orthogonality is requested no cut in the pool is closer than that to another; a cut is only replaced by one that is sparser or more effective. (Orthogonality fails after a replacement; cuts from root changes are not compared.)", "quantifier": "all histories of objectives and LP answers", "why_tests_cant": "all histories", "anchors": [{"file": "src/cut/PRLP.cpp", "symbols": ["PRLP::genCutHelper"]}, {"file": "src/cut/CutHelper.cpp", "symbols": ["howDuplicate"]}, {"file": "src/cut/CglVPC.cpp", "symbols": ["CglVPC::addCut"]}]}
{"id": "C73", "title": "A cut stronger than a collected parallel one is not lost", "statement": "If a newly found cut is parallel to one already collected but has a stronger right-hand side, the stronger one ends up in the pool. (Violated: it is counted as duplicate and dropped.)", "quantifier": "all pools and new cuts", "why_tests_cant": "all pairs of cuts", "anchors": [{"file": "src/cut/PRLP.cpp", "symbols": ["PRLP::genCutHelper"]}, {"file": "src/cut/CutHelper.cpp", "symbols": ["howDuplicate"]}]}
{"id": "C74", "title": "Exactly the documented parameter values are accepted", "statement": "Every value of an integer parameter that the documentation lists is accepted by the setter, becomes the parameter's value and changes no other parameter; every value it does not list ends the process with an error. (Violated: STRENGTHEN=3 and PRLP_TIMELIMIT=-2 are documented but rejected; STRENGTHEN=2, BB_MODE=57, PARTIAL_BB_NUM_STRONG=-5 are accepted.)", "quantifier": "all parameters, all int values and all reachable parameter sets", "why_tests_cant": "all values", "anchors": [{"file": "include/VPCParameters.hpp", "symbols": ["intParam", "VPCParameters::set", "NumericParameter::val_is_allowed"]}]}
{"id": "C75", "title": "The exit reason of the first point-ray LP solve reflects the LP's answer", "statement": "Setting up the point-ray LP succeeds exactly if the LP is solved to optimality; infeasible, time limit and numerical trouble are told apart, and every non-success is recorded as exactly one failure of the matching kind.", "quantifier": "all answers of the LP solver and all durations", "why_tests_cant": "all combinations of solver flags", "anchors": [{"file": "src/cut/PRLP.cpp", "symbols": ["PRLP::setup"]}]}
{"id": "C76", "title": "Time limits of the point-ray LP are the documented ones", "statement": "A given limit is kept; the value -1 means unlimited time for the initial solve and half the time it took subsequently. (Violated: the initial solve is limited to at most 60 seconds, the later limit is max(5, that time), and it replaces the user's parameter for all later disjunctions.)", "quantifier": "all limits and durations", "why_tests_cant": "all durations", "anchors": [{"file": "src/cut/PRLP.cpp", "symbols": ["PRLP::setup"]}, {"file": "include/VPCParameters.hpp", "symbols": ["PRLP_TIMELIMIT"]}]}
{"id": "C77", "title": "Merged totals are the sums of the rounds", "statement": "After the last round, the record of the cuts that is printed to the log is the sum of the records of the rounds: number of cuts, objectives tried, failures, and each counter per cut type, per objective and per failure reason; the lists of cut types and of objectives are those of the rounds one after the other and have one entry per cut collected.", "quantifier": "every number of rounds and everything that can happen inside each round", "why_tests_cant": "the counters are kept in a dozen vectors updated in many places; only an argument over all histories shows that the printed totals agree with the cuts", "anchors": [{"file": "src/test/analysis.cpp", "symbols": ["updateCutInfo", "setCutInfo"]}, {"file": "src/main.cpp", "symbols": ["main"]}]}
{"id": "C78", "title": "Reported support of cuts", "statement": "The average, smallest and largest number of nonzero coefficients reported for the cuts are the average, minimum and maximum over the cuts found.", "quantifier": "every list of cuts, every history of updates, every tolerance", "why_tests_cant": "a test compares one list; the running average depends on the whole history of updates", "anchors": [{"file": "src/test/analysis.cpp", "symbols": ["checkCutDensity", "updateCutInfo", "updateGMICInfo", "analyzeStrength"]}]}
{"id": "C79", "title": "Active cut counts", "statement": "The number of cuts reported active at the LP solution with Gomory cuts, with disjunctive cuts and with both is the number of cuts whose activity equals their right-hand side up to the default tolerance there, also per objective that found the cut; an LP that is not optimal has no active cut.", "quantifier": "every list of cuts, every three LP solutions", "why_tests_cant": "the claim ranges over all cut lists and points", "anchors": [{"file": "src/test/analysis.cpp", "symbols": ["checkCutActivity", "analyzeStrength"]}]}
{"id": "C80", "title": "Averages over disjunctions", "statement": "The reported number of disjunctions, of disjunctions with an integer solution, and the averages (terms, density, size of the point-ray LP, explored and pruned nodes, depth) are the numbers and averages over the disjunctions used.", "quantifier": "every number of disjunctions and every data", "why_tests_cant": "running averages depend on the whole history", "anchors": [{"file": "src/test/analysis.cpp", "symbols": ["updateDisjInfo"]}]}
{"id": "C81", "title": "Checking cuts against a known solution", "statement": "If the option to check the cuts is on and an optimal solution is known, every round reports the number of its cuts that cut the solution off by at least the tolerance; the report is zero if and only if no cut does.", "quantifier": "every list of cuts, every solution, every combination of options", "why_tests_cant": "the claim ranges over all cuts, points and option values", "anchors": [{"file": "src/test/analysis.cpp", "symbols": ["checkCutsAgainstFeasibleSolution"]}, {"file": "src/main.cpp", "symbols": ["main"]}]}
{"id": "C82", "title": "Best and average of repeated branch-and-bound runs", "statement": "The summary of repeated branch-and-bound runs gives, field by field, the best value (smallest objective, iterations, nodes, times; largest bounds) and the average over exactly the runs made.", "quantifier": "every nonempty list of run results", "why_tests_cant": "the claim ranges over all lists of results of any length", "anchors": [{"file": "src/test/BBHelper.cpp", "symbols": ["updateBestBBInfo", "averageBBInfo"]}]}
{"id": "C83", "title": "Repeated runs solve the same problem", "statement": "When branch and bound is repeated with permuted rows and columns, every run solves an equivalent problem: the attained objective values of the LP relaxation and of the integer program are those of the input, and the cuts added are valid for it.", "quantifier": "every problem, every shuffle, every run", "why_tests_cant": "the shuffles are random; equivalence must hold for all of them and all problem sizes", "anchors": [{"file": "src/test/BBHelper.cpp", "symbols": ["runBBTests"]}]}
{"id": "C84", "title": "Seeds of repeated runs", "statement": "Run i uses the random seed times i, as documented; different runs use different seeds; no accepted seed stops the program.", "quantifier": "every accepted seed, every number of runs, every clock value", "why_tests_cant": "ranges over 2^32 seeds and all numbers of runs", "anchors": [{"file": "src/test/BBHelper.cpp", "symbols": ["runBBTests"]}, {"file": "include/VPCParameters.hpp", "symbols": ["RANDOM_SEED"]}]}
{"id": "C85", "title": "Requested branch-and-bound tests are made and reported", "statement": "For BB_RUNS = n and the digits of BB_MODE, exactly |n| runs are made for each configuration switched on (no cuts, VPCs, all cuts), and the report of a configuration is the list of its results with first, best and average; nothing else is reported.", "quantifier": "every parameter setting, every problem, every solver behaviour", "why_tests_cant": "all parameter combinations, numbers of runs and solver answers", "anchors": [{"file": "src/test/BBHelper.cpp", "symbols": ["runBBTests"]}, {"file": "src/main.cpp", "symbols": ["main"]}]}
{"id": "C86", "title": "Choice of the split variable", "statement": "If the user chose no variable, the split disjunction is on an integer variable away from integrality, and every integer variable that is more fractional was tried and has an infeasible side; no disjunction is reported exactly when no integer variable is fractional.", "quantifier": "every LP solution, every sequence of solver answers", "why_tests_cant": "ranges over all LP solutions and solver answers", "anchors": [{"file": "src/disjunction/SplitDisjunction.cpp", "symbols": ["prepareDisjunction", "checkVar"]}]}
{"id": "C87", "title": "Every term of a tree disjunction is a leaf of the tree", "statement": "Every term saved for a partial branch-and-bound tree, together with the common changed bounds, contains only points that (up to 1e-7, the tolerance with which bounds are compared) satisfy the bounds of one leaf of the tree and the branching inequality recorded for it; a bound is recorded exactly when it differs from the reference bound by at least 1e-7 or in finiteness.", "quantifier": "every history of branch and bound, every vector of bounds", "why_tests_cant": "all trees and histories", "anchors": [{"file": "src/branch/VPCEventHandler.cpp", "symbols": ["saveInformation", "event"]}]}
{"id": "C88", "title": "Outcome of preparing a tree disjunction", "statement": "Preparing a partial tree reports success exactly when branch and bound was stopped early with at least two terms and all counts agree; it reports an optimal solution exactly when the solver proved one (and then stores its value and point), too few terms or unknown otherwise; the process ends exactly when the number of terms disagrees with the number of leaves counted.", "quantifier": "every final state of branch and bound", "why_tests_cant": "all final states of the solver", "anchors": [{"file": "src/disjunction/PartialBBDisjunction.cpp", "symbols": ["prepareDisjunction"]}]}
{"id": "C89", "title": "Return codes, forced branch and direction of the custom variable choice", "statement": "The return code of the variable choice has the documented meaning (1: feasible, -1: infeasible, 2/3/4: bounds can be changed, 0: normal); a forced branch is the feasible side of the variable it names; the branch to be taken first is the one with less estimated degradation unless a preferred way is set; the direction returned is never an infeasible one.", "quantifier": "every list of candidates and every outcome of strong branching", "why_tests_cant": "all candidate lists and LP outcomes", "anchors": [{"file": "src/branch/OsiChooseStrongCustom.cpp", "symbols": ["chooseVariable", "doStrongBranching"]}]}
{"id": "C90", "title": "The exit reason says what happened", "statement": "The exit reason of generateCuts is the truth: no disjunction exactly if fewer than two terms were requested for a tree; the failure of the preparation or of the setup of a disjunction is what is reported, and nothing is generated after it; an integer-optimal solution yields exactly one cut, the objective cut.", "quantifier": "every parameter setting, every outcome of preparation, setup and objectives, any number of disjunctions", "why_tests_cant": "all combinations of outcomes and all numbers of disjunctions", "anchors": [{"file": "src/cut/CglVPC.cpp", "symbols": ["generateCuts", "matchStatus"]}, {"file": "src/main.cpp", "symbols": ["main", "doCustomRoundOfCuts"]}]}
{"id": "C91", "title": "Every cut is attributed to the disjunction it came from", "statement": "disjID[i] is the index of the disjunction from which cut i was generated; cuts of the objective of an integer-optimal disjunction carry the id of that disjunction; only disjunctions reached before a failure or the time limit occur.", "quantifier": "every history of objectives over any number of disjunctions", "why_tests_cant": "all histories", "anchors": [{"file": "src/cut/CglVPC.cpp", "symbols": ["generateCuts", "addCut"]}, {"file": "src/cut/PRLP.cpp", "symbols": ["genCutHelper"]}]}
{"id": "C92", "title": "Every field of the log stands under its name", "statement": "In the line that a run appends to the log, the i-th field is the quantity that the i-th name of the header stands for, for every parameter setting, instance, number of rounds and of branch-and-bound runs; a name that occurs twice shows the same value both times; the titles of the first header line stand over the first column of their block. The same holds for the log of the preprocessing mode.", "quantifier": "every run that reaches the end, every order in which the parameters are visited, every problem size", "why_tests_cant": "the header and the line are printed by different functions with hundreds of fields; all inputs and blank fields", "anchors": [{"file": "src/test/analysis.cpp", "symbols": ["printHeader", "printBoundAndGapInfo", "printSummaryBBInfo", "printFullBBInfo", "printOrigProbInfo", "printPostCutProbInfo", "printDisjInfo", "printCutInfo"]}, {"file": "src/main.cpp", "symbols": ["startUp", "wrapUp"]}, {"file": "src/utility/preprocess.cpp", "symbols": ["printPreprocessingHeader", "performCleaning"]}, {"file": "include/VPCParameters.hpp", "symbols": ["printParams"]}, {"file": "include/common/TimeStats.hpp", "symbols": ["print"]}]}
{"id": "C93", "title": "A line of the log can be split at the commas", "statement": "Splitting a line of the log at commas gives exactly the fields that were printed, as many as the header has names; lists of values of several runs are separated by semicolons and do not break the line.", "quantifier": "every content of the fields", "why_tests_cant": "all texts (instance, string parameters, machine) and numbers of runs", "anchors": [{"file": "src/test/analysis.cpp", "symbols": ["printFullBBInfo"]}, {"file": "src/test/BBHelper.cpp", "symbols": ["createStringFromBBInfoVec"]}, {"file": "src/main.cpp", "symbols": ["wrapUp"]}, {"file": "include/common/utility.hpp", "symbols": ["stringValue"]}]}
{"id": "C94", "title": "The percentage of the gap closed", "statement": "The percentage printed for a bound is 100 (bound - lp) / (ip - lp): 0 at the LP bound, 100 at the optimal value, between them in between, larger for a better bound; it is left out exactly if the optimal value or the bound is not known.", "quantifier": "all bounds", "why_tests_cant": "all real values", "anchors": [{"file": "src/test/analysis.cpp", "symbols": ["printBoundAndGapInfo"]}]}
{"id": "C95", "title": "Counters of the cuts in the log", "statement": "The numbers by type, by objective and by failure in the log are those of the cuts generated in all rounds, and they can be printed for every outcome of the run.", "quantifier": "every sequence of rounds with any outcome, every problem size", "why_tests_cant": "all histories of rounds", "anchors": [{"file": "src/test/analysis.cpp", "symbols": ["printCutInfo", "setCutInfo", "updateCutInfo", "printOrigProbInfo"]}]}
{"id": "C96", "title": "One line per run over the life of the log", "statement": "Whatever runs are made one after the other with the same log, including runs that fail or are killed at any point: the log consists of the header and one line per run, in order, each readable under that header.", "quantifier": "all sequences of runs, every point at which a run can stop, either mode of the program", "why_tests_cant": "crash points and histories", "anchors": [{"file": "src/main.cpp", "symbols": ["startUp", "wrapUp", "signal_handler_with_error_msg"]}, {"file": "include/common/utility.hpp", "symbols": ["writeErrorToLog"]}, {"file": "src/test/analysis.cpp", "symbols": ["printHeader"]}, {"file": "src/utility/preprocess.cpp", "symbols": ["printPreprocessingHeader"]}]}
{"id": "C97", "title": "What is collected is consistent with the LP values", "statement": "Every point given to the point-ray LP has, up to the tolerances or three percent, the objective value that the LP solver reported for the term, every ray the slope that the LP solver reported and not a negative one, and no ray is the zero vector; whatever is not consistent ends the process, whatever is consistent is accepted.", "quantifier": "all answers of the LP solver, all terms", "why_tests_cant": "all solver answers and all pairs of values", "anchors": [{"file": "src/utility/nbspace.cpp", "symbols": ["setCompNBCoorPoint", "setCompNBCoorRay"]}, {"file": "src/cut/CglVPC.cpp", "symbols": ["CglVPC::genDepth1PRCollection"]}]}
{"id": "C98", "title": "The preprocessing mode saves an equivalent instance", "statement": "In preprocessing mode, whatever the presolver wrote and for every number of cleaning passes with truthful solver answers: the instance that is saved has exactly the integer-feasible points of the presolved instance, it is a minimization problem, a point that was better in the sense of the presolved instance has a smaller value, and the LP bound reported for it is valid for every integer-feasible point of the presolved instance. No more than five passes are made and none after a pass that changes nothing.", "quantifier": "all instances, both senses, both cleaning modes, all truthful solver answers in every pass", "why_tests_cant": "quantifies over all instances and solver answers over several passes", "anchors": [{"file": "src/utility/preprocess.cpp", "symbols": ["performCleaning", "cleanProblem"]}]}
{"id": "C99", "title": "The preprocessing log reports the instance that was saved", "statement": "The branch-and-bound results and counts logged for the cleaned instance are those of the cleaned instance: results are copied from the original only if the cleaned instance is the same problem, and the number of fixings is the number of bounds changed by strong branching.", "quantifier": "all instances, strategies, modes and solver answers", "why_tests_cant": "quantifies over all presolver outputs and solver answers", "anchors": [{"file": "src/utility/preprocess.cpp", "symbols": ["performCleaning"]}]}
{"id": "C100", "title": "Each objective tried is the one its heuristic documents", "statement": "Whatever the LP solver, the clock and the sorting answer, every objective tried on the point-ray LP is the one documented for the heuristic it is counted under (all ones; a post-Gomory point; tight on the first point; tight on a point, possibly with that point's row as an equation and another constraint minimized; a unit vector; tight on a ray), on the point-ray LP that was set up; when the function returns, the objective is zero and no row is an equation.", "quantifier": "all point-ray LPs, parameter values, solver and clock answers, sort orders, generator states", "why_tests_cant": "quantifies over all histories of solver answers and over LPs of any size", "anchors": [{"file": "src/cut/PRLP.cpp", "symbols": ["targetStrongAndDifferentCuts", "findCutsTightOnPoint", "tryOneObjective", "genCut"]}, {"file": "src/utility/SolverHelper.cpp", "symbols": ["addToObjectiveFromPackedVector", "setConstantObjectiveFromPackedVector"]}]}
{"id": "C101", "title": "Generating cuts from one point-ray LP changes the generator only by trying objectives", "statement": "The effect of the cut loop on the cuts and all counters equals that of the sequence of objectives tried; the number returned is the number of cuts added, and objectives tried equals cuts added plus failures.", "quantifier": "all point-ray LPs, parameters, solver answers and generator states", "why_tests_cant": "quantifies over all histories", "anchors": [{"file": "src/cut/PRLP.cpp", "symbols": ["targetStrongAndDifferentCuts", "findCutsTightOnPoint", "tryOneObjective", "genCut"]}]}
{"id": "C102", "title": "No objective is tried beyond the limits", "statement": "An objective is tried only while neither the cut limit nor the failure limit (evaluated on this point-ray LP) is reached, so the number of objectives tried on one point-ray LP is at most max(20, 10*ceil(L/4)+1, 6*(L-k)) for cut limit L and k cuts already counted.", "quantifier": "all point-ray LPs, parameters, solver and clock answers, cut limits from 1 to 10^12", "why_tests_cant": "quantifies over all histories; the bound must hold for every limit", "anchors": [{"file": "src/cut/PRLP.cpp", "symbols": ["targetStrongAndDifferentCuts", "findCutsTightOnPoint", "tryOneObjective", "genCut"]}, {"file": "src/cut/CglVPC.cpp", "symbols": ["reachedCutLimit", "reachedFailureLimit"]}]}
{"id": "C103", "title": "Every cut comes from an optimal solution of the point-ray LP", "statement": "If the LP solver is truthful, every solution turned into a cut is feasible for the point-ray LP as it was set up (although lower bounds are raised along the way) and optimal for its objective among the feasible solutions with the targeted row tight; every cut in the collection was there before or is the cleaned cut of such a solution; hence all cuts are valid for every feasible term of the disjunction up to the rounding tolerance.", "quantifier": "all point-ray LPs, parameters, truthful solver answers, generator states", "why_tests_cant": "quantifies over all truthful solvers and histories", "anchors": [{"file": "src/cut/PRLP.cpp", "symbols": ["targetStrongAndDifferentCuts", "findCutsTightOnPoint", "tryOneObjective", "genCut"]}, {"file": "src/cut/PRLP.cpp", "symbols": ["genCutHelper"]}]}
{"id": "C104", "title": "Heuristics stay within their budgets and run in the documented order", "statement": "On one point-ray LP each heuristic is used at most as often as its parameter says (all ones, post-Gomory iterations, lower-bound point, points over both rounds, unit vectors, rays over both rounds, objectives per point at most twice the cut limit), in the documented order, and no other heuristic is used.", "quantifier": "all point-ray LPs, parameter values, solver and clock answers", "why_tests_cant": "quantifies over all histories and parameter values", "anchors": [{"file": "src/cut/PRLP.cpp", "symbols": ["targetStrongAndDifferentCuts", "findCutsTightOnPoint", "tryOneObjective", "genCut"]}]}
{"id": "C105", "title": "Post-Gomory iterations yield further cuts", "statement": "With USE_ITER_BILINEAR = k, up to k different cuts can come from post-Gomory points.", "quantifier": "all solvers that repeat their answer, all k", "why_tests_cant": "a statement about all k and all LPs", "anchors": [{"file": "src/cut/PRLP.cpp", "symbols": ["iterateDeepestCutPostGomory", "genCut"]}]}
{"id": "C106", "title": "Every point gets its chance", "statement": "Every point of the point-ray LP is targeted by the tight-on-points heuristics unless a limit is hit or a cut found so far is tight on it; the first point is left to the heuristic for the disjunctive lower bound. A point-ray LP without points is handled.", "quantifier": "all point-ray LPs, parameter values, solver answers", "why_tests_cant": "quantifies over all LPs and histories", "anchors": [{"file": "src/cut/PRLP.cpp", "symbols": ["targetStrongAndDifferentCuts"]}]}
{"id": "C107", "title": "The lower-bound heuristic targets the point of lowest objective value", "statement": "The row made tight by the heuristic for the disjunctive lower bound belongs to a point with the lowest objective value among all points collected from the terms of the disjunction.", "quantifier": "all point-ray collections, sort orders, solver answers", "why_tests_cant": "quantifies over all collections", "anchors": [{"file": "src/cut/PRLP.cpp", "symbols": ["setup", "targetStrongAndDifferentCuts"]}]}
{"id": "C108", "title": "Candidates for strong branching are the best-valued unsatisfied variables of the best priority", "statement": "When the disjunction is built by branch and bound with a custom choice method, the list of strong-branching candidates at a node holds each unsatisfied integer variable exactly once; between one and the requested number of them (parameter PARTIAL_BB_NUM_STRONG: the number, or all columns for -1, or the rounded-up square root for -2) are candidates, they have the best priority, come first in decreasing order of their value under the chosen method, and no variable of the same priority left out has a better value than a candidate. If some variable cannot be made feasible the answer is -1 with no candidates.", "quantifier": "every set of branching objects with any infeasibilities, priorities, estimates and pseudo-costs, every method and requested number, and every order in which the library sorts ties", "why_tests_cant": "the list is maintained in place with a moving boundary and a running worst entry; an error shows only for particular orders of priorities and values", "anchors": [{"file": "src/branch/OsiChooseStrongCustom.cpp", "symbols": ["OsiChooseStrongCustom::setupList"]}, {"file": "src/disjunction/PartialBBDisjunction.cpp", "symbols": ["setCbcParametersForPartialBB"]}]}
{"id": "C109", "title": "Choice method 7 branches on the variable of the depth, and always finds one", "statement": "With choice method 7, at a node whose LP is optimal and not integer feasible, the variable chosen is the first one not fixed among the integer variables from number depth on, its down branch is explored first, and the value used for branching is strictly inside its bounds and fractional; the call always returns.", "quantifier": "every node depth, all bounds and LP values of all integer variables, every status of the LP", "why_tests_cant": "depends on which variables earlier tightening fixed at every depth of every tree", "anchors": [{"file": "src/branch/OsiChooseStrongCustom.cpp", "symbols": ["OsiChooseStrongCustom::chooseVariable"]}]}
{"id": "C110", "title": "Numbers of terms given per round are used round by round", "statement": "With the option DISJ_OPTIONS set to numbers separated by the separator, round i uses the i-th number as the number of disjunctive terms (the last one once they are used up); in set mode one disjunction is made for each number that is at least 2 and smaller numbers are skipped; a list whose length is not the number of rounds makes the program stop with an error; a list written as the help text shows is read as the list of its numbers.", "quantifier": "every text given for the option, every mode, every number of rounds, every course of the rounds", "why_tests_cant": "depends on the text, the mode and how many rounds are performed; an error status is only visible to the caller", "anchors": [{"file": "include/VPCParameters.hpp", "symbols": ["parseDisjOptions"]}, {"file": "src/main.cpp", "symbols": ["main"]}, {"file": "src/cut/CglVPC.cpp", "symbols": ["CglVPC::generateCuts"]}]}
{"id": "C111", "title": "Bounds reported are the values of the LPs with the cuts they name", "statement": "After every round, the bound reported for Gomory cuts, for disjunctive cuts and for all cuts (in total and by round) is the optimal value of the original LP with exactly the Gomory cuts, exactly the disjunctive cuts, exactly all cuts found so far; cuts are generated for the LP with all cuts so far if GOMORY is 1 and with the disjunctive cuts only otherwise; the bounds never get worse from round to round, and all cuts together are at least as good as either kind.", "quantifier": "every solver, every sequence of cuts in every number of rounds, every value of GOMORY", "why_tests_cant": "four LPs are kept in step over the whole run; a cut missing in one of them shows only as a slightly wrong number", "anchors": [{"file": "src/main.cpp", "symbols": ["main"]}, {"file": "src/utility/SolverHelper.cpp", "symbols": ["applyCutsCustom"]}, {"file": "include/test/analysis.hpp", "symbols": ["SummaryBoundInfo"]}]}
{"id": "C112", "title": "Branch and bound with user cuts gets exactly the cuts given", "statement": "Every cut passed to branch and bound with user cuts is handed to the solver once, as an inequality satisfied by the same points, and no other inequality is; a cut that was given does not end the process.", "quantifier": "every list of cuts, every history of callbacks and runs of Gurobi, CPLEX and Cbc", "why_tests_cant": "depends on the order of the callbacks of an external solver and on the form of each cut", "anchors": [{"file": "src/test/GurobiHelper.cpp", "symbols": ["GurobiUserCutCallback::callback", "doBranchAndBoundWithUserCutsGurobi"]}, {"file": "src/test/CplexHelper.cpp", "symbols": ["doBranchAndBoundWithUserCutsCplexCallable"]}, {"file": "src/test/CbcHelper.cpp", "symbols": ["CbcUserCutEventHandler::event", "doBranchAndBoundWithUserCutsCbc"]}]}
{"id": "C113", "title": "Root-node statistics of branch and bound", "statement": "The number of root passes reported is the number of passes of the cut loop at the root; the bound after the first (last) pass is the value of the relaxation after the first (last) pass of cuts; the time of the last solution is that of the event with the best incumbent; if there was no pass the values of the root relaxation are reported; no reported value is read uninitialised.", "quantifier": "every history of callback events, every number of passes, one or two runs", "why_tests_cant": "the values come out of a state machine driven by events of an external solver", "anchors": [{"file": "src/test/GurobiHelper.cpp", "symbols": ["GurobiUserCutCallback::callback", "doBranchAndBoundWithUserCutsGurobi"]}, {"file": "src/test/CplexHelper.cpp", "symbols": ["usercutcallback", "logcallback"]}, {"file": "src/test/CbcHelper.cpp", "symbols": ["CbcUserCutEventHandler::event"]}]}
{"id": "C114", "title": "Options for branch and bound reach the solver", "statement": "For every strategy each documented option (user cuts, cuts off/on, Gomory cuts off/on, presolve off/on, heuristics off/on, best bound, strong branching) that is set changes the corresponding parameter of the solver and one that is not set changes nothing; the time limit, one thread and the seed are always set; a start file is read exactly if its name has the extension of the solver.", "quantifier": "every value of BB_STRATEGY, every best bound, every file name, each of Gurobi, CPLEX and Cbc", "why_tests_cant": "2^32 strategies; an option without effect only makes the run slower or different", "anchors": [{"file": "src/test/GurobiHelper.cpp", "symbols": ["setStrategyForBBTestGurobi"]}, {"file": "src/test/CplexHelper.cpp", "symbols": ["setStrategyForBBTestCplexCallable"]}, {"file": "src/test/CbcHelper.cpp", "symbols": ["setStrategyForBBTestCbc"]}, {"file": "include/VPCParameters.hpp", "symbols": ["BB_Strategy_Options", "use_bb_option"]}]}
{"id": "C115", "title": "Result of a branch-and-bound run", "statement": "A run returns exactly if the solver ended with an optimal solution or at a limit; objective, bound, iterations, nodes and time are those of the solver run(s) made; a returned solution has the reported objective; without a solution no objective value better than the bound is reported.", "quantifier": "every outcome of the solver, including a second run without presolve, with or without a solution asked for", "why_tests_cant": "needs runs that hit limits or are undecided between infeasible and unbounded", "anchors": [{"file": "src/test/GurobiHelper.cpp", "symbols": ["doBranchAndBoundWithGurobi"]}, {"file": "src/test/CplexHelper.cpp", "symbols": ["doBranchAndBoundWithCplexCallable"]}, {"file": "src/test/CbcHelper.cpp", "symbols": ["doBranchAndBoundWithCbc"]}]}
{"id": "C116", "title": "The name of a disjunction describes its terms", "statement": "The name of a disjunction, as reported to the user, can be read back: it lists the integer solution found (if any) and exactly the terms of the disjunction, in order, each with its bounds (branching bound and bounds changed on the way) and their values. (Violated as soon as a term is not a child of the root, and for values that are nearly integral.)", "quantifier": "every tree (number of terms, depth, bounds), every split variable and value", "why_tests_cant": "the text is built by nested appends whose result depends on the depth of every term", "anchors": [{"file": "src/disjunction/Disjunction.cpp", "symbols": ["setCgsName"]}, {"file": "src/disjunction/SplitDisjunction.cpp", "symbols": ["setCgsName"]}, {"file": "src/branch/VPCEventHandler.cpp", "symbols": ["setupDisjunctiveTermFromStats", "saveInformation"]}]}
{"id": "C117", "title": "Strategy digits and number of candidates select the components of the tree search", "statement": "For every strategy number the ones digit selects the node comparison, the tens digit the branching decision and the signed hundreds digit the choice method as documented; the number of strong-branching candidates is the given number, the number of columns for -1, the rounded-up square root for -2; presolve, cuts and the time limit of the solver are always off. (Violated for ones digit 5, and for the hundreds digit if the tens digit is 3.)", "quantifier": "every value of the strategy and of the number of candidates, every number of columns", "why_tests_cant": "2^64 combinations; a wrong component only makes a different tree", "anchors": [{"file": "src/disjunction/PartialBBDisjunction.cpp", "symbols": ["setCbcParametersForPartialBB", "getCbcStrategies", "generatePartialBBTree", "prepareDisjunction"]}]}
{"id": "C118", "title": "The branching decision compares candidates as documented", "statement": "Among the candidates of a node, before a solution was found the one with the fewest infeasibilities on its better side is chosen, ties by the change of the objective there; after a solution the first one with the largest smaller change; the way is the one preferred by the user, otherwise the better side; the result does not depend on the order except among equals. (The tie rule is violated.)", "quantifier": "every list of candidates with any changes and numbers, before or after a solution", "why_tests_cant": "a stateful comparison over an unbounded list", "anchors": [{"file": "src/branch/CbcBranchStrongDecision.cpp", "symbols": ["betterBranch", "initialize"]}]}
{"id": "C119", "title": "Known optimal value used in the reports", "statement": "The optimal value against which gaps are reported is the value given by the user; otherwise that in the file of optima; otherwise that of the optimal solution found by the MIP solver when the option asks for it, which then equals the optimal value of the instance; without any of these it is unknown. (Violated for objectives with a constant, and when the option is combined with another one.)", "quantifier": "every parameter setting, every file of optima, every instance and every answer of the solvers", "why_tests_cant": "the value passes through several optional sources and guards; a wrong value only shifts reported gaps", "anchors": [{"file": "src/main.cpp", "symbols": ["main", "startUp"]}, {"file": "src/utility/utility.cpp", "symbols": ["getObjValueFromFile"]}, {"file": "src/test/GurobiHelper.cpp", "symbols": ["doBranchAndBoundWithGurobi"]}]}
{"id": "C120", "title": "Phases of a run and its return code", "statement": "A run whose LP relaxation is integral reports the LP value as the optimum and ends; a run in preprocessing mode saves the cleaned instance and makes no cuts; any other run makes the rounds of cuts; the return code tells a failed run from a successful one. (Violated for solutions integral only within the tolerance; the return code is always 0.)", "quantifier": "every parameter setting, every instance and every answer of the LP and MIP solvers", "why_tests_cant": "the paths through main depend on external solvers", "anchors": [{"file": "src/main.cpp", "symbols": ["main", "processArgs", "wrapUp"]}]}
{"id": "C121", "title": "Table of the rounds", "statement": "If requested, a table is written beside the log file with a header, a line for the relaxation and one line for each round in order, all with the same number of fields and each field the named quantity of that round; tables of different instances or numbers of terms do not overwrite each other; the times of the rounds add up to the total times. (Violated without a log file, for log names without extension, for the densities and for the column of Gomory cuts without any.)", "quantifier": "every number of rounds and every history of the rounds, every name, every clock", "why_tests_cant": "unbounded numbers of rounds; the table is written by position", "anchors": [{"file": "src/main.cpp", "symbols": ["main"]}]}
{"id": "C122", "title": "Times of the generator in the log", "statement": "The times of the generator in the log are the sums over all rounds of what the generator of each round spent. (Violated for the time of the initial solve, which is counted once per round.)", "quantifier": "every number of rounds, every behaviour of the generators and clocks", "why_tests_cant": "an accumulation over an unbounded number of rounds with timers passed to and fro", "anchors": [{"file": "src/main.cpp", "symbols": ["main"]}, {"file": "include/common/TimeStats.hpp", "symbols": ["add_value", "get_value"]}]}
{"id": "C123", "title": "The interface object keeps the problem it was given", "statement": "After a problem is loaded into the interface object, whatever sequence of solving, generating and applying cuts follows, the problem in the object has exactly the integer solutions of the problem loaded, the collected cuts hold at all of them, and the disjunction shown is that of the last generation; a call that cannot be served throws and changes nothing. (Violated: loading another problem keeps the cuts and the disjunction of the previous one.)", "quantifier": "every history of calls, every selection of cuts, every LP solver obeying the stated laws and every sound generator", "why_tests_cant": "the property concerns unbounded histories of calls; tests make one generation on one problem", "anchors": [{"file": "src/utility/VPCSolverInterface.cpp", "symbols": ["load", "solve", "resolve", "generateCuts", "applyCuts"]}, {"file": "include/VPCSolverInterface.hpp", "symbols": ["VPCSolverInterface"]}]}
{"id": "C124", "title": "An instance is read by the reader of its extension or refused", "statement": "An existing file dir/name.ext (plain or archived) is read by the reader belonging to the extension, both by the main program and by the interface, and a file that could not be read correctly stops the run. (Violated: files in which the reader found errors are used, and only lower-case extensions are known.)", "quantifier": "every file name, every set of existing files, every answer of the readers", "why_tests_cant": "names are unbounded strings, and the readers are external", "anchors": [{"file": "src/utility/SolverHelper.cpp", "symbols": ["initializeSolver"]}, {"file": "src/utility/VPCSolverInterface.cpp", "symbols": ["load"]}, {"file": "src/utility/utility.cpp", "symbols": ["parseFilename"]}]}
{"id": "C125", "title": "A CPLEX problem converted and loaded is the same problem", "statement": "Converting a CPLEX problem and loading the result yields a problem with the same columns, rows, solutions and (minimized) objective, or an error is returned. (Violated for problems without nonzeros, pure linear programs, unbounded, fixed binary and semicontinuous variables; ranged rows are refused after writing.)", "quantifier": "every CPLEX problem", "why_tests_cant": "all matrices of all sizes; conversion walks through the arrays by position", "anchors": [{"file": "src/utility/OsiProblemData.cpp", "symbols": ["ConvertCPX2Data", "MemSetProbData"]}, {"file": "src/utility/VPCSolverInterface.cpp", "symbols": ["load"]}, {"file": "include/common/OsiProblemData.hpp", "symbols": ["OsiProblemData"]}]}
{"id": "C126", "title": "Disjunctions and sets of disjunctions are values", "statement": "Disjunctions (tree-based or split) and sets of disjunctions can be created, copied, cloned, assigned (also to themselves), extended by terms, reset, added to sets and destroyed in any order: a copy has all contents of its source (bounds, inequalities, bases of terms, values, parameters, data of the tree, number of the round), changing or destroying one object never changes another, no basis or member is used after it was deleted or deleted twice, and when all objects are destroyed nothing is left allocated. (Violated: the number of the round is not copied, and assigning to or resetting a nonempty set loses its members.)", "quantifier": "every sequence of operations on any number of objects", "why_tests_cant": "all histories of copies and destructions", "anchors": [{"file": "src/disjunction/Disjunction.cpp", "symbols": ["DisjunctiveTerm::initialize", "DisjunctiveTerm::clear", "Disjunction::initialize", "Disjunction::setupAsNew", "DisjunctionSet::initialize", "DisjunctionSet::setupAsNew", "DisjunctionSet::~DisjunctionSet"]}, {"file": "src/disjunction/PartialBBDisjunction.cpp", "symbols": ["PartialBBDisjunction::initialize"]}, {"file": "src/disjunction/SplitDisjunction.cpp", "symbols": ["SplitDisjunction::initialize"]}]}
{"id": "C127", "title": "Parallelism is the cosine of the angle, and cuts are turned down by it", "statement": "For two vectors, packed or not, getParallelism returns the cosine of the angle between them (between -1 and 1, symmetric, unchanged by positive factors, 1 or -1 exactly for positive or negative multiples, 0 exactly for perpendicular vectors) and getOrthogonality one minus it; NaN is returned exactly if one vector is zero. A new cut that is not a duplicate is turned down for orthogonality exactly if its cosine with a collected cut exceeds 1 - MIN_ORTHOGONALITY, so every cut added keeps that distance from all earlier ones, and the iteration towards a deepest cut stops when the point does not change. (Violated: packed vectors with unsorted indices give a wrong value, and the stopping test fails at the origin and takes different points in one direction for the same.)", "quantifier": "all vectors and dimensions, all collections of cuts, all minimal orthogonalities", "why_tests_cant": "all real vectors; the characterization of the extreme values is an equivalence over infinitely many pairs", "anchors": [{"file": "src/cut/CutHelper.cpp", "symbols": ["getParallelism", "getOrthogonality", "howDuplicate"]}, {"file": "src/cut/PRLP.cpp", "symbols": ["PRLP::genCutHelper", "PRLP::iterateDeepestCutPostGomory"]}]}
{"id": "C128", "title": "Event handlers are values, and stop once the tree is saved", "statement": "Event handlers can be created, copied, cloned, assigned (also to themselves), given an original solver and destroyed in any order: a copy has all contents of its source and a solver of its own, no solver is used after deletion or deleted twice, and nothing stays allocated when all are destroyed. The getters return what was set. In the generation of a tree the handler of the search has the limits, option, disjunction and bounds it was made for, and the caller's handler is freed. Once the tree is saved, the limit reached or the search over, every event is answered by stop and changes nothing. (Violated: copying a handler without a solver is undefined; assignment and a second setOriginalSolver leak a solver each; the time limit and the bounds are returned as truncated integers.)", "quantifier": "every history of operations on any number of handlers; every event", "why_tests_cant": "all histories of copies, assignments and destructions", "anchors": [{"file": "src/branch/VPCEventHandler.cpp", "symbols": ["VPCEventHandler::initialize", "VPCEventHandler::operator=", "VPCEventHandler::clone", "VPCEventHandler::setOriginalSolver", "VPCEventHandler::~VPCEventHandler", "VPCEventHandler::event"]}, {"file": "include/VPCEventHandler.hpp", "symbols": ["getMaxTime", "getOriginalLB"]}, {"file": "src/disjunction/PartialBBDisjunction.cpp", "symbols": ["generatePartialBBTree"]}]}
{"id": "C129", "title": "Consistency checks do not end a correct run", "statement": "While points and rays are collected, every point, every ray and the stored integer solution is compared with the objective value the LP solver reports, and the process is ended if they differ. If the LP solver answers exactly, the saved objective values are right, the stored solution satisfies the relaxation, rows have one right-hand side and the number of columns times the tolerance for small numbers is below the tolerance of the checks, no check ends the process: the collection is made for every disjunction. (Outside these conditions the code ends the process: exactly if the incumbent's objective value outside the relaxation, counted twice, reaches the tolerance; for a ranged row nonbasic at its lower side; and for enough columns with coordinates below the tolerance.)", "quantifier": "every relaxation, disjunction, correct LP answer and tolerance; any number of terms, rows and columns", "why_tests_cant": "needs all LPs and bases; the tests run a few instances on which the checks pass", "anchors": [{"file": "src/cut/CglVPC.cpp", "symbols": ["CglVPC::setupConstraints", "CglVPC::genDepth1PRCollection"]}, {"file": "src/utility/nbspace.cpp", "symbols": ["setCompNBCoorPoint", "setCompNBCoorRay", "setCompNBCoor"]}]}
{"id": "C130", "title": "Solving the point-ray LP for one objective", "statement": "For each objective the point-ray LP is solved within its time limit, its answer is checked, and if the value is NaN or minus infinity it is solved again; the code returned tells the status the solver reports. This never ends the process, runs the LP solver at most 18 times and takes at most 12 times the limit; a clean first answer is the result; a NaN or minus infinity is returned only after a solve from scratch; the code is 0 exactly if the solver claims optimality. LP settings change the time limit, the log levels and the options named, nothing else.", "quantifier": "every LP solver behaviour (any sequence of answers), objective and time limit; every settings state", "why_tests_cant": "depends on what the LP solver does at each of up to 18 runs; tests see one well-behaved solver", "anchors": [{"file": "src/cut/PRLP.cpp", "symbols": ["PRLP::resolvePRLP"]}, {"file": "src/utility/SolverHelper.cpp", "symbols": ["checkSolverOptimality", "setLPSolverParameters", "setTimeLimit", "hitTimeLimit", "setupClpForStrongBranching", "setupClpForCbc"]}]}
{"id": "C131", "title": "Rounding error of dot products", "statement": "In double arithmetic (round to nearest, no overflow or underflow) every compensated dot product (dense, packed with dense, two sorted packed vectors) of n entries differs from the exact one by at most (6u + 11 n u^2) times the sum of the moduli of the products, u = 2^-53, for n up to 2^53: to first order the error does not grow with the length. Without negative products this is a relative error; integer data whose products sum to at most 2^53 in modulus gives the exact integer.", "quantifier": "every vector, every length up to 1/u, every rounding with relative error at most u", "why_tests_cant": "the bound ranges over all vectors and all sequences of rounding errors", "anchors": [{"file": "src/utility/utility.cpp", "symbols": ["dotProduct", "dotProductNoCompensation"]}]}
{"id": "C132", "title": "Temporary copies for other solvers", "statement": "A run with Gurobi or CPLEX on a solver object solves exactly that problem, also when other processes make such runs at the same time, and afterwards neither files nor descriptors it created remain and no other file has changed.", "quantifier": "all problems, file systems, names tried by mkstemp, numbers of runs, descriptor limits, and all interleavings of any number of processes", "why_tests_cant": "The result depends on which names exist, on the order of the file operations of other processes and on the number of runs already made; tests see one order on one machine.", "anchors": [{"file": "src/utility/utility.cpp", "symbols": ["createTmpFilename"]}, {"file": "src/test/BBHelper.cpp", "symbols": ["createTmpFileCopy"]}, {"file": "src/test/GurobiHelper.cpp", "symbols": ["createTmpFileCopy", "doBranchAndBoundWithGurobi", "presolveModelWithGurobi"]}, {"file": "src/test/CplexHelper.cpp", "symbols": ["createTmpFileCopy", "doBranchAndBoundWithCplexCallable", "readFileIntoCplexCallable"]}]}
{"id": "C133", "title": "Comparisons used for sorting", "statement": "Every comparison the program gives to a sorting function or an ordered container is a strict weak order on the elements it is used for (otherwise the behaviour is undefined), and the sorted sequence of values does not depend on the library.", "quantifier": "all arrays of doubles including NaN and infinities, all strings, all pairs of orthogonalities", "why_tests_cant": "A comparison must satisfy its laws on all triples of elements; a test that sorts some arrays does not show a violation.", "anchors": [{"file": "include/common/utility.hpp", "symbols": ["index_cmp_dsc", "index_cmp_asc"]}, {"file": "include/PRLP.hpp", "symbols": ["compareRayInfo"]}, {"file": "include/common/TimeStats.hpp", "symbols": ["ltstr"]}, {"file": "include/VPCParameters.hpp", "symbols": ["Parameter"]}, {"file": "src/cut/PRLP.cpp", "symbols": ["setup", "findCutsTightOnPoint", "targetStrongAndDifferentCuts"]}, {"file": "src/disjunction/SplitDisjunction.cpp", "symbols": ["prepareDisjunction", "generateSplitDisjunctions"]}]}
{"id": "C134", "title": "Maximization instances in the branch-and-bound tests", "statement": "For every instance, minimization or maximization, the values exchanged with the solver of the branch-and-bound tests have one meaning: reported objective values are in the sense in which the main program works, the best of several runs is the best solution found, the known optimal value handed over makes the solver stop only at a bound that proves it, and a solution counts as improving exactly if it is better. (Violated for maximization instances with Gurobi and CPLEX, which read the file again while the program works with the negated objective.)", "quantifier": "all objectives, senses, solutions, bounds, lists of runs and histories of announced solutions", "why_tests_cant": "The sense matters only for instances whose file says maximize; values of every size and sign have to be right, and tests are run on minimization instances.", "anchors": [{"file": "src/test/BBHelper.cpp", "symbols": ["runBBTests", "updateBestBBInfo"]}, {"file": "src/test/GurobiHelper.cpp", "symbols": ["setStrategyForBBTestGurobi", "GurobiUserCutCallback"]}, {"file": "src/utility/SolverHelper.cpp", "symbols": ["initializeSolver"]}, {"file": "src/main.cpp", "symbols": ["main"]}]}
{"id": "C135", "title": "Strong branching leaves the problem as it was, and fixing loses no solution", "statement": "Given branching information that refers to the solver's own bound arrays, doStrongBranching leaves the solver with the bounds it had, the hot start snapshot deleted and all clones and saved arrays freed, for every list of candidates, every outcome of their sides and wherever it stops; its counters count exactly the candidates tried; the cutoff changes only to the value of the last trusted solution; the return code is the documented one. When chooseVariable then fixes variables because a side was infeasible, no feasible solution better than the cutoff is lost, and only bounds of these variables change.", "quantifier": "every list of candidates, bounds set by their branches, outcomes, time limits, return criterion, solution and bounds", "why_tests_cant": "the state after the call depends on the sequence of outcomes of LP solves and on where the loop stops", "anchors": [{"file": "src/branch/OsiChooseStrongCustom.cpp", "symbols": ["OsiChooseStrongCustom::doStrongBranching", "OsiChooseStrongCustom::chooseVariable"]}]}
{"id": "C136", "title": "The drawn tree is the branch-and-bound tree", "statement": "For every history of a partial branch-and-bound search, the plot string and the tikz string made from the recorded node statistics describe the tree explored: nodes numbered without gaps, one edge into every node but the root and from a smaller number, two children for every node branched on and none for the others, labels naming the variable branched on at the parent, and marks telling pruned, integer and open nodes apart. Building the tables reads no element out of range and violates no assertion.", "quantifier": "every sequence of nodes taken up, kept or pruned, with any objective values, variables and solutions found, stopped at any point", "why_tests_cant": "the tables depend on the whole history and on where the search is stopped", "anchors": [{"file": "src/utility/vpc_debug.cpp", "symbols": ["generateTreePlotString", "generateTikzTreeString", "setChildForTikzTreeString"]}, {"file": "src/branch/VPCEventHandler.cpp", "symbols": ["VPCEventHandler::event", "NodeStatistics::initialize"]}]}
{"id": "C137", "title": "Variable choosers are values", "statement": "For every program that constructs, copies, clones, assigns, changes, uses and destroys strong-branching variable choosers in any order, a copy has the settings and pseudocosts of its source and no results, changing one chooser never changes another, no array of results is freed twice, used after it is freed or leaked.", "quantifier": "every sequence of operations on any number of choosers, including self-assignment", "why_tests_cant": "ownership depends on the whole history of copies; Cbc clones choosers internally", "anchors": [{"file": "src/branch/OsiChooseStrongCustom.cpp", "symbols": ["OsiChooseStrongCustom::OsiChooseStrongCustom", "OsiChooseStrongCustom::operator=", "OsiChooseStrongCustom::clone", "OsiChooseStrongCustom::copyOurStuff", "OsiChooseStrongCustom::resetResults"]}]}
{"id": "C138", "title": "Copies of a point-ray LP are the same LP", "statement": "A copy, a clone or an assigned PRLP object has the same LP, counters, indices and owners as its source.", "quantifier": "every PRLP object", "why_tests_cant": "must hold for every LP and state", "anchors": [{"file": "src/cut/PRLP.cpp", "symbols": ["PRLP::PRLP", "PRLP::operator=", "PRLP::clone", "PRLP::initialize"]}]}
{"id": "C139", "title": "Copies of solvers are released exactly once", "statement": "Generating cuts, running the branch-and-bound tests, cleaning an instance and the whole program work on private copies of the solver. On every path on which they return, whatever the solvers compute, each copy is deleted exactly once and never used afterwards, no solver that existed before is deleted or changed, and when the program returns no solver is left.", "quantifier": "all calls: any number and kind of disjunctions, terms, objectives, open nodes, branching probes, rounds, runs of branch and bound, any results of the solver calls, any return path", "why_tests_cant": "The return paths depend on results of the solver and on options; a leak or a double delete on one of them has no visible effect in a test.", "anchors": [{"file": "src/cut/CglVPC.cpp", "symbols": ["CglVPC::generateCuts", "CglVPC::setupConstraints"]}, {"file": "src/disjunction/PartialBBDisjunction.cpp", "symbols": ["PartialBBDisjunction::prepareDisjunction", "generatePartialBBTree"]}, {"file": "src/branch/VPCEventHandler.cpp", "symbols": ["saveInformation", "saveInformationFromStats", "setupDisjunctiveTerm"]}, {"file": "src/disjunction/SplitDisjunction.cpp", "symbols": ["SplitDisjunction::prepareDisjunction"]}, {"file": "src/test/BBHelper.cpp", "symbols": ["runBBTests"]}, {"file": "src/test/CbcHelper.cpp", "symbols": ["doBranchAndBoundWithCbc", "doBranchAndBoundWithUserCutsCbc"]}, {"file": "src/utility/preprocess.cpp", "symbols": ["performCleaning"]}, {"file": "src/main.cpp", "symbols": ["main", "wrapUp"]}]}
{"id": "C140", "title": "Condition number of a basis", "statement": "The condition number reported for a solver with a basis is that of its basis matrix: in norm 1 the product of the largest absolute column sums of the basis matrix and of its inverse, in norm 2 the quotient of the largest and the smallest singular value; it is at least 1, it does not depend on the order of the basic variables or the sign convention of the slacks, and the computation has no undefined behaviour.", "quantifier": "all LPs with a basis, any order of the basic variables and sign of the slacks, any size", "why_tests_cant": "The value is not checked anywhere, and the cases that go wrong (basis without slacks and small coefficients, no rows, very many rows) are outside of a sample.", "anchors": [{"file": "src/test/condition_number.cpp", "symbols": ["compute_condition_number", "compute_condition_number_norm1", "compute_condition_number_norm2"]}]}
{"id": "C141", "title": "Branch and bound searches the problem it is given", "statement": "Each of the twelve branch-and-bound entry points (Gurobi, CPLEX, Cbc; file name or solver object; with or without cuts) searches exactly the problem in the named file or in the solver object, restricted by exactly the cuts it is given, with the same objective. (Violated: the two Cbc versions with a file name ignore the name and read the file the program was started with; cuts bounded from above reach Gurobi and CPLEX the wrong way round.)", "quantifier": "all problems, cuts, files on disk, file names and parameters", "why_tests_cant": "The name is only ignored if it differs from the parameter, and results of the wrong problem look like results.", "anchors": [{"file": "src/test/CbcHelper.cpp", "symbols": ["doBranchAndBoundWithCbc", "doBranchAndBoundWithUserCutsCbc"]}, {"file": "src/test/GurobiHelper.cpp", "symbols": ["doBranchAndBoundWithGurobi", "doBranchAndBoundWithUserCutsGurobi"]}, {"file": "src/test/CplexHelper.cpp", "symbols": ["doBranchAndBoundWithCplexCallable", "doBranchAndBoundWithUserCutsCplexCallable"]}]}
{"id": "C142", "title": "The status of a variable does not depend on the kind of solver", "statement": "For every basis and every variable, structural or slack, the questions whether it is basic, a ray, at its upper or its lower bound, free or fixed are answered according to the basis (a slack at its upper bound belongs to a row at its lower side, a fixed variable counts by the sign of its reduced cost), and the answer is the same for Clp and for any other solver that reports its basis by status codes. (Violated for superbasic and fixed variables, for problems without rows, and for other solvers in a program built with Clp.)", "quantifier": "all bases, reduced costs, row prices and variables, solvers of every kind", "why_tests_cant": "Only the branch that is compiled and reached can be tested, and ties and fixed variables depend on signs of duals.", "anchors": [{"file": "src/utility/SolverHelper.cpp", "symbols": ["isBasicCol", "isNonBasicFreeCol", "isNonBasicUBCol", "isNonBasicLBCol", "isNonBasicFixedCol", "isBasicSlack", "isNonBasicUBSlack", "isNonBasicLBSlack", "isNonBasicFixedSlack"]}, {"file": "include/common/SolverHelper.hpp", "symbols": ["isBasicVar", "isNonBasicLBVar", "isNonBasicUBVar", "isRayVar"]}]}
{"id": "C143", "title": "Preprocessing saves the cleaned instance under its name and tests that instance", "statement": "When the preprocessing mode of the program (mode 1: presolve; mode 2: presolve and clean) returns after presolving with Gurobi or CPLEX, the file named after the input (X_presolved.mps.gz, resp. X_cleaned.mps or X_cleaned.mps.gz) holds exactly the instance that was obtained, other files of the user are unchanged, the temporary copy of mode 2 is gone, and the branch-and-bound statistics printed for the cleaned instance are those of that instance.", "quantifier": "all contents of the disk before the run (including files of earlier runs), all inputs, both modes, each choice of engines, compressing and non-compressing libraries, all names the system hands out for temporary files", "why_tests_cant": "Tests start on a clean directory with one build of the libraries; what happens with an old X_cleaned.mps beside the compressed file, or with a reader that does not look for .gz, depends on the history of the directory and the build.", "anchors": [{"file": "src/utility/preprocess.cpp", "symbols": ["performCleaning"]}, {"file": "src/test/GurobiHelper.cpp", "symbols": ["presolveModelWithGurobi"]}, {"file": "src/test/CplexHelper.cpp", "symbols": ["presolveModelWithCplexCallable"]}]}
{"id": "C144", "title": "Timers of a run: never an assertion, nothing left running, parts no longer than the whole", "statement": "Whatever calls generateCuts goes through (early returns, limits, any number of disjunctions, terms, LPs and heuristics), and however many calls are made on one generator, no assertion of the timer object fails, every timer is off when a call returns, and with a clock that does not go back the reported times are consistent: the heuristics add up to no more than GEN_CUTS_TIME, disjunctions, set-up, dummy objective and cut generation to no more than TOTAL_TIME, the LPs to no more than TOTAL_TIME. Likewise for the command-line program over all rounds: initial solve, cuts, application and branch and bound add up to no more than TOTAL_TIME, the ways of generating cuts to no more than CUT_TOTAL_TIME, and the total written at the end is the time the program took however it ends. The time limit tested in the loop over the disjunctive terms can be reached.", "quantifier": "all sequences of calls, all ways a call can go, all clocks, all numbers of rounds, all ends of the program", "why_tests_cant": "The order of starting and stopping timers depends on which limit is hit in which stage; a test sees one order and real clock values, and an unbalanced pair shows only in the next call.", "anchors": [{"file": "src/cut/CglVPC.cpp", "symbols": ["generateCuts", "setupConstraints", "tryObjectives", "finish"]}, {"file": "src/cut/PRLP.cpp", "symbols": ["setup", "genCut", "targetStrongAndDifferentCuts"]}, {"file": "src/disjunction/SplitDisjunction.cpp", "symbols": ["prepareDisjunction"]}, {"file": "src/main.cpp", "symbols": ["main", "wrapUp"]}, {"file": "include/common/TimeStats.hpp", "symbols": ["TimeStats"]}]}
{"id": "C145", "title": "Rounds of cuts lose no solution, and the bounds reported are bounds", "statement": "Over any number of rounds, with any choice of Gomory cuts, if the cuts of each round are valid for the solutions in the LP they are generated for, then every solution of the original problem satisfies every cut collected and lies in every LP kept and given to the final branch-and-bound analysis; the optimal value of the problem does not change; the run is not ended by an LP taken to be infeasible; and every bound reported (by round and at the end, for disjunctive cuts, Gomory cuts and all cuts) is at most the value of every solution.", "quantifier": "all solvers, all values of GOMORY, all numbers of rounds, all sequences of cuts sound for the LP of their round, all solutions", "why_tests_cant": "Cuts of a later round are generated for an LP that already has earlier cuts; whether they stay valid for the original problem is a matter of induction over rounds, and a test sees only one instance, one sequence and mostly solvers that meet no limit.", "anchors": [{"file": "src/main.cpp", "symbols": ["main", "startUp"]}, {"file": "src/utility/SolverHelper.cpp", "symbols": ["applyCutsCustom", "checkSolverOptimality"]}]}
{"id": "C146", "title": "Once the time limit is reached no further objective is tried", "statement": "While objectives of the point-ray LP are tried, every objective tried, other than those of the iterations that follow the Gomory objective, is preceded by a reading of the clock of its own that was below the time limit. So if the limit has passed from some reading on, no more objectives are tried than there were readings before it, and none if it had passed when the search began, whatever the solver and the sorts return.", "quantifier": "all point-ray LPs, all parameter values, all answers of the LP solver, all clocks, all orders of points, rays and unit vectors", "why_tests_cant": "The clock can run out between any two of the objectives; the number of tests needed is the number of paths through nine nested loops times the number of moments.", "anchors": [{"file": "src/cut/PRLP.cpp", "symbols": ["targetStrongAndDifferentCuts", "tryOneObjective", "findCutsTightOnPoint", "iterateDeepestCutPostGomory"]}, {"file": "src/cut/CglVPC.cpp", "symbols": ["reachedTimeLimit"]}]}
{"id": "C147", "title": "A point-ray LP without solution means that there is no cut", "statement": "If the point-ray LP has no solution, which is reported as PRLP_INFEASIBLE, then no inequality valid for the disjunctive hull of the points and rays collected cuts off the LP optimum, and the LP optimum lies in the closed convex hull of these points and rays. With the sign of the right-hand side flipped the LP always has a solution.", "quantifier": "all collections of points and rays, with or without an integer solution entered, all numbers of columns, all positive scales, all orders of sorting, all inequalities", "why_tests_cant": "The claim is that nothing exists, among infinitely many inequalities; a test can only try some. The converse direction needs a theorem of the alternative.", "anchors": [{"file": "src/cut/PRLP.cpp", "symbols": ["PRLP::setup"]}, {"file": "src/cut/CglVPC.cpp", "symbols": ["setupConstraints", "tryObjectives"]}]}
{"id": "C148", "title": "An optimal solution of the point-ray LP is the strongest cut for its objective", "statement": "An optimal solution of the point-ray LP for an objective gives a cut whose value of the objective is the smallest among all inequalities with the same right-hand side that are valid for the disjunctive hull, so if any of them cuts off the point taken as objective, the cut found does; removing duplicate rows, turning singleton rows into bounds and deleting empty columns lose no cut. So in every run of the loop over objectives a cut that aims at a collected point has the smallest slack at it of all valid inequalities and touches it if any does, further cuts that must touch a point are the strongest among the valid inequalities that touch it, and a cut that aims at a ray is parallel to it if any valid inequality is.", "quantifier": "all collections of points and rays, all objectives, all optimal solutions, all valid inequalities", "why_tests_cant": "The comparison is with infinitely many inequalities, over all collections; a test compares with a few.", "anchors": [{"file": "src/cut/PRLP.cpp", "symbols": ["PRLP::setup", "setObjectiveCustom", "addToObjectiveFromPackedVector"]}, {"file": "src/cut/CglVPC.cpp", "symbols": ["setupConstraints"]}]}
{"id": "C149", "title": "A point that the point-ray LP does not cut off cannot be cut off", "statement": "If the cut of an optimal solution for a point taken as objective does not cut off that point, then the segment from the LP optimum to the point meets the closed hull of the points and rays collected, and no inequality that is valid for the disjunctive hull and cuts off the LP optimum cuts off the point; conversely, if the segment meets the closed hull, no such inequality cuts off the point.", "quantifier": "all collections of points and rays, all target points, all optimal solutions, all valid inequalities", "why_tests_cant": "It says when nothing can be found among infinitely many inequalities; a test can only fail to find one.", "anchors": [{"file": "src/cut/PRLP.cpp", "symbols": ["PRLP::setup", "findCutsTightOnPoint", "addToObjectiveFromPackedVector"]}, {"file": "src/cut/CglVPC.cpp", "symbols": ["setupConstraints"]}]}
{"id": "C150", "title": "A disjunction that moves the bound gives cuts", "statement": "If every term that was collected has an optimal value worse than that of the LP relaxation by at least some D > 0, then the inequality that the objective gets worse by D is valid for the disjunctive hull, the point-ray LP has a solution (it is not reported infeasible), and the cut of an optimal solution is at a point taken as objective no weaker than that inequality; so if the point-ray LP has no solution, some term collected has a value no worse than that of the LP relaxation.", "quantifier": "all LP relaxations, disjunctions, correctly solved terms, collections and target points", "why_tests_cant": "It relates the bound of the disjunction to the existence of cuts for every instance; a test sees only whether an instance gave a cut.", "anchors": [{"file": "src/cut/CglVPC.cpp", "symbols": ["genDepth1PRCollection", "setupConstraints"]}, {"file": "src/cut/PRLP.cpp", "symbols": ["PRLP::setup", "PRLP::solve"]}]}
{"id": "C151", "title": "The cuts depend only on the disjunctive hull", "statement": "The solutions of the point-ray LP are exactly the inequalities (with the right-hand side of the LP) that are valid for the disjunctive hull of the points and rays collected. Therefore the order of the terms, repeated terms, the order in which points and rays are sorted, the order and repetition of rays, and an integer solution that lies in the hull do not change whether there is a cut nor how strong the optimal cut is at a target point; a smaller hull, in particular one with fewer terms, never gives fewer or weaker cuts.", "quantifier": "all pairs of collections, sort functions, target points and optimal solutions", "why_tests_cant": "Order independence and monotonicity compare runs over all permutations and all pairs of disjunctions.", "anchors": [{"file": "src/cut/PRLP.cpp", "symbols": ["PRLP::setup"]}, {"file": "src/cut/CglVPC.cpp", "symbols": ["setupConstraints", "genDepth1PRCollection"]}]}
{"id": "C152", "title": "A child taken for pruned is put right", "statement": "If a child is recorded as pruned although the search keeps it, the records are put right at the next tree event so that they are exactly those of a search in which the child was recognized at once; the disjunction saved then covers every integral point that the search itself did not discard. If all children were recorded correctly nothing is changed.", "quantifier": "all problems, histories of the search with any number of such children, and saves", "why_tests_cant": "It depends on when the solver wrongly reports infeasibility and on what state it is in at the next event; a test cannot provoke all of these.", "anchors": [{"file": "src/branch/VPCEventHandler.cpp", "symbols": ["VPCEventHandler::event", "setPrunedNodeStatistics", "saveInformation"]}]}
{"id": "C153", "title": "The cuts of a disjunction move the bound exactly as far as the disjunction", "statement": "Adding the cuts of one disjunction to the LP relaxation never moves the LP bound beyond the best objective value reported for that disjunction, however many cuts are generated and for whatever objectives. If that value is worse than the value of the LP relaxation, some cut of the point-ray LP moves the bound exactly there. So the gap closed by the cuts is never more than the gap reported for the disjunction, and this much can be reached.", "quantifier": "every problem, disjunction, set of cuts taken from the point-ray LP, set of root changes and stored integer solution; every truthful LP solver", "why_tests_cant": "the bound is a statement about all points of an LP and all solutions of the point-ray LP; tests see some cuts on some instances", "anchors": [{"file": "src/cut/CglVPC.cpp", "symbols": ["CglVPC::setupConstraints", "CglVPC::genDepth1PRCollection"]}, {"file": "src/cut/PRLP.cpp", "symbols": ["PRLP::setup"]}, {"file": "src/disjunction/Disjunction.cpp", "symbols": ["Disjunction::updateObjValue"]}]}
{"id": "C154", "title": "The drawn tree shows every node once, below its parent, in the right colour", "statement": "The picture written for a branch-and-bound tree is made without undefined behaviour; it has the root first and every other node - taken up, pruned, open, or found by strong branching - exactly once, below its parent and labelled with the variable branched on there; a node is green exactly if an integer solution ended it, red if it was pruned otherwise or was left without children at the end of the search, blue if it is still open, and plain otherwise.", "quantifier": "every history of branch and bound, stopped or finished, also if nodes are dropped without an event", "why_tests_cant": "the recursion and the last correction run over tables whose shape depends on the whole history; a test sees a few trees", "anchors": [{"file": "src/utility/vpc_debug.cpp", "symbols": ["generateTikzTreeStringHelper", "setChildForTikzTreeString", "generateTikzTreeString"]}]}
{"id": "C155", "title": "Every cut touches the disjunctive hull", "statement": "The value of an optimal solution of the point-ray LP is never negative, whatever the objective. If it is positive, or the solution is an extreme one, or the attempt aims at a collected point (with or without equation), then one of the points collected satisfies the cut with equality, so no cut with the same coefficients and a larger right-hand side is valid for the disjunctive hull; in the original variables the cut is satisfied with equality by a point of one of the terms or by the solution stored with the disjunction. Only a solution that is not extreme, for an objective of value 0, may give a cut that touches nothing.", "quantifier": "all collections of points and rays, with or without an integer solution entered, all positive scales, all objectives, all solutions an LP solver may return, every attempt of every run of the loop over objectives", "why_tests_cant": "Whether a cut is supporting concerns all points of the hull; a test looks at one disjunction and one optimal solution, and solvers usually return extreme ones.", "anchors": [{"file": "src/cut/PRLP.cpp", "symbols": ["setup", "targetStrongAndDifferentCuts", "genCut"]}, {"file": "src/cut/CglVPC.cpp", "symbols": ["setupConstraints"]}, {"file": "src/utility/nbspace.cpp", "symbols": ["setCutFromNBCoefficients"]}]}
{"id": "C156", "title": "Every cut cuts off the LP optimum, and by how much", "statement": "Before cleaning, the cut derived from a solution of the point-ray LP is violated at the LP optimum by exactly the right-hand side of that LP and what the coefficients too small to be stored contribute. Cleaning changes the violation at a point by exactly the losses of the coefficients removed (|coefficient| times the distance of the point to the bound substituted) and by the rounding of a right-hand side below EPS to 0; it never raises the violation in the box by more than EPS. Hence if no finite bound is further than R from the LP optimum, no value of it exceeds X, and n*(EPS_COEFF*R + EPS*X) + EPS is less than the right-hand side, then every cut of every run cuts off the LP optimum, and a cut of a flipped point-ray LP does not. Violated in general: the violation is not checked again after cleaning, so a cut may be collected that cuts off no point of the LP.", "quantifier": "all LP relaxations, orders of nonbasic variables, solutions of the point-ray LP, bounds and tolerances, all points of the box, every attempt of every run of the loop over objectives", "why_tests_cant": "That a cut is violated is what makes it a cut; cleaning loses violation only for wide bounds and small coefficients, which the test instances do not have, and the loss must be bounded over all rows and solutions.", "anchors": [{"file": "src/cut/PRLP.cpp", "symbols": ["genCutHelper"]}, {"file": "src/cut/CutHelper.cpp", "symbols": ["cleanCut", "removeSmallCoefficients"]}, {"file": "src/utility/nbspace.cpp", "symbols": ["setCutFromNBCoefficients"]}]}
{"id": "C157", "title": "Rounding in the derivation of a cut does bounded harm", "statement": "In floating-point arithmetic with unit roundoff u, the cut derived from a solution of the point-ray LP with P entries has at every point x a slack that differs from that of the inequality in the nonbasic space by at most ((1+u)^(P+1)-1) times (sum over the columns of the moduli of what goes into the coefficient, times |x_k|, plus the moduli of what goes into the right-hand side), plus EPS times the sum of |x_k|. Cleaning adds the losses of the coefficients removed, at most ((1+u)^(n+1)-1) times the moduli of what goes into the right-hand side, and EPS. So a point in the box that satisfies the inequality up to d violates the cut handed out by at most d plus these errors, and the LP optimum violates it by at least the right-hand side less these errors and losses. Violated if no error is allowed: rounding alone, with doubles as data, makes the cut of a valid inequality invalid.", "quantifier": "all roundings with relative error u per operation (double precision without overflow and underflow: u = 2^-53), all LP relaxations whose rows have distinct columns, all solutions, bounds, tolerances and points", "why_tests_cant": "Rounding errors depend on the data in a chaotic way; a bound for all data cannot be tested.", "anchors": [{"file": "src/utility/nbspace.cpp", "symbols": ["setCutFromNBCoefficients"]}, {"file": "src/cut/CutHelper.cpp", "symbols": ["setOsiRowCut", "removeSmallCoefficients"]}]}
