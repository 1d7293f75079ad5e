{"id": "C01", "title": "IFDS results are exactly the facts on realizable paths", "statement": "After IFDSSolver::solve() returns, a data-flow fact d is in ifdsResultsAt(n) if and only if some interprocedurally realizable run (calls and returns matched through the same call site) of the problem's flow functions leads from an initial seed to (n, d).", "quantifier": "every ICFG, every finite or infinite fact domain on which solve() returns, every family of flow functions, every set of seeds at function start points, every statement n and fact d", "why_tests_cant": "the number of programs, flow functions and worklist schedules is unbounded; a test only checks the facts of one fixed program", "anchors": ["include/phasar/DataFlow/IfdsIde/Solver/IDESolver.h: processCall, processExit, processNormalFlow, propagate, computeValues", "include/phasar/DataFlow/IfdsIde/Solver/IFDSSolver.h: ifdsResultsAt", "include/phasar/DataFlow/IfdsIde/IFDSTabulationProblem.h"]}
{"id": "C02", "title": "IDE results over-approximate every realizable path", "statement": "After IDESolver::solve() returns, resultAt(n,d) is above (in the join order) the value obtained by pushing the seed's value through the edge functions along any realizable run from a seed to (n,d).", "quantifier": "every ICFG, every monotone edge-function algebra whose composeWith/joinWith satisfy the documented contract, every seed at a start point, every realizable run", "why_tests_cant": "ranges over all (unboundedly long, recursive) interprocedural paths", "anchors": ["include/phasar/DataFlow/IfdsIde/Solver/IDESolver.h: solve, resultAt, valuePropagationTask, valueComputationTask"]}
{"id": "C03", "title": "IDE results are the join over all realizable paths (precision)", "statement": "If additionally all edge functions are distributive and composeWith/joinWith are exact, resultAt(n,d) is the least upper bound of the values of all realizable runs from seeds to (n,d): the solver never reports a value that is larger than necessary.", "quantifier": "every ICFG, every distributive edge-function algebra, every statement and fact", "why_tests_cant": "least-upper-bound over an infinite set of paths cannot be enumerated by tests", "anchors": ["include/phasar/DataFlow/IfdsIde/Solver/IDESolver.h: IDESolver"]}
{"id": "C04", "title": "Result does not depend on worklist order", "statement": "Whatever order the solver takes items from its worklists (the code takes the most recently pushed), any two runs of solve() on the same problem that finish report the same facts and the same values at every statement.", "quantifier": "every pair of complete schedules of the same (distributive) problem", "why_tests_cant": "the schedule space is exponential and unobservable from a unit test of one order", "anchors": ["include/phasar/DataFlow/IfdsIde/Solver/IDESolver.h: doNext, computeValues"]}
{"id": "C05", "title": "solve() terminates", "statement": "On a program with finitely many statements, facts and functions, and edge functions/values of finite height under join, solve() stops after finitely many steps, whatever order work items are processed in.", "quantifier": "every finite problem of finite height, every schedule", "why_tests_cant": "non-termination is not observable by a finite test; the bound depends on the input", "anchors": ["include/phasar/DataFlow/IfdsIde/Solver/IDESolver.h: doNext, propagate, computeValues"]}
{"id": "C06", "title": "Interrupting and continuing does not change the result", "statement": "Driving the solver through any mix of initialize(), next(), nextN(k), solveWithTimeout/solveUntil with arbitrary cancellation points, and continueSolving/continueUntil, and finally finalize(), yields the same result as a single solve(), and never performs an operation on an empty worklist.", "quantifier": "every cancellation schedule and interleaving of the stepping API", "why_tests_cant": "cancellation can happen at any of unboundedly many points, including exactly when the last work item was consumed", "anchors": ["include/phasar/DataFlow/IfdsIde/Solver/IDESolverAPIMixin.h: initialize, next, nextN, solveUntil, continueSolving, continueUntilImpl", "include/phasar/DataFlow/IfdsIde/Solver/IDESolver.h: doInitialize, doNext"]}
{"id": "C07", "title": "Intermediate solver states never contain unreachable facts", "statement": "After any number of next() steps, every fact for which the solver holds a jump function at a statement is reached by a realizable run: facts observed while solving is interrupted are never spurious.", "quantifier": "every prefix of every schedule of every problem", "why_tests_cant": "needs an invariant over all intermediate states", "anchors": ["include/phasar/DataFlow/IfdsIde/Solver/IDESolver.h: doNext", "include/phasar/DataFlow/IfdsIde/Solver/IDESolverAPIMixin.h: next"]}
{"id": "C08", "title": "The zero fact holds wherever control can reach", "statement": "With automatic zero-adding enabled, the zero fact is in the result at every statement reachable from a seeded start point by a realizable control-flow path, even if the user's flow functions drop it.", "quantifier": "every ICFG, every user flow function, every statement", "why_tests_cant": "all programs and all user-provided flow functions", "anchors": ["include/phasar/DataFlow/IfdsIde/Solver/FlowEdgeFunctionCache.h: autoAddZero handling", "include/phasar/DataFlow/IfdsIde/FlowFunctions.h: ZeroedFlowFunction", "include/phasar/DataFlow/IfdsIde/Solver/IDESolver.h: submitInitialSeeds"]}
{"id": "C09", "title": "Returns past seeds are followed into every caller", "statement": "With followReturnsPastSeeds enabled, a fact that reaches the exit of a function in which it was seeded is propagated to every return site of every caller of that function (as given by getCallersOf), independent of processing order.", "quantifier": "every problem with unbalanced returns, every schedule", "why_tests_cant": "depends on the order in which call edges and exits are discovered", "anchors": ["include/phasar/DataFlow/IfdsIde/Solver/IDESolver.h: processExit (followReturnsPastSeeds), submitInitialValues"]}
{"id": "C10", "title": "Special summaries replace the callee in both phases", "statement": "When getSummaryFlowFunction(n,f) is non-null, the call at n is treated as a normal flow through the summary: values and facts inside f are not influenced by this call site.", "quantifier": "every problem and every choice of summaries", "why_tests_cant": "all combinations of summarised and analysed callees", "anchors": ["include/phasar/DataFlow/IfdsIde/Solver/IDESolver.h: processCall, propagateValueAtCall"]}
{"id": "C11", "title": "Seeds inside a function body are honoured", "statement": "A seed (n,d,v) at a statement n that is not a function start point contributes value v to resultAt(m,d') for every realizable run from (n,d) to (m,d').", "quantifier": "every seed position, every problem", "why_tests_cant": "all seed placements", "anchors": ["include/phasar/DataFlow/IfdsIde/Solver/IDESolver.h: submitInitialSeeds, submitInitialValues, valuePropagationTask, valueComputationTask"]}
{"id": "C12", "title": "composeWith of the built-in edge functions is composition", "statement": "For the built-in edge functions (identity, all-bottom, all-top, constant, composer), f.composeWith(g).computeTarget(x) is above g.computeTarget(f.computeTarget(x)) for every x, and equal to it except where documented.", "quantifier": "every pair of built-in edge functions over every join lattice and every source value", "why_tests_cant": "infinite lattice values and nested compositions of arbitrary depth", "anchors": ["include/phasar/DataFlow/IfdsIde/EdgeFunctionUtils.h: EdgeIdentity, AllBottom, AllTop, ConstantEdgeFunction, defaultComposeOrNull, EdgeFunctionComposer", "include/phasar/DataFlow/IfdsIde/EdgeFunction.h: composeWith"]}
{"id": "C13", "title": "joinWith of the built-in edge functions is a pointwise upper bound", "statement": "f.joinWith(g).computeTarget(x) is above both f.computeTarget(x) and g.computeTarget(x) for all x; with the bounded JoinEdgeFunction this stays true whatever sequence of joins led there and the number of stored members never exceeds the configured bound.", "quantifier": "every sequence of joins of built-in edge functions, every source value", "why_tests_cant": "unbounded sequences of joins", "anchors": ["include/phasar/DataFlow/IfdsIde/EdgeFunctionUtils.h: defaultJoinOrNull, EdgeIdentity::join, ConstantEdgeFunction::join, JoinEdgeFunction"]}
{"id": "C14", "title": "Repeated joining of edge functions converges", "statement": "Starting from all-top and joining in any sequence of built-in edge functions, the resulting edge function changes (as decided by operator!=) only a bounded number of times.", "quantifier": "every infinite sequence of edge functions", "why_tests_cant": "liveness over unbounded sequences", "anchors": ["include/phasar/DataFlow/IfdsIde/EdgeFunctionUtils.h", "include/phasar/DataFlow/IfdsIde/Solver/IDESolver.h: propagate"]}
{"id": "C15", "title": "LatticeDomain and BinaryDomain are join lattices with consistent comparison operators", "statement": "join is associative, commutative, idempotent, Top is its identity and Bottom absorbs; operator== is an equivalence; operator< is a strict weak (total) order with Top smallest and Bottom largest, consistent with ==.", "quantifier": "all values of any underlying type", "why_tests_cant": "infinite value domain, all triples", "anchors": ["include/phasar/Domain/LatticeDomain.h", "include/phasar/Domain/BinaryDomain.h", "include/phasar/Utils/JoinLattice.h"]}
{"id": "C16", "title": "All lookup views of the jump-function store agree", "statement": "After any sequence of addFunction/removeFunction/clear calls, forwardLookup(d1,n), reverseLookup(n,d2) and lookupByTarget(n) describe the same set of (d1,n,d2,f) entries, with exactly one edge function per (d1,n,d2): the last one added and not removed.", "quantifier": "every operation sequence", "why_tests_cant": "state space of histories is unbounded", "anchors": ["include/phasar/DataFlow/IfdsIde/Solver/JumpFunctions.h: addFunction, removeFunction, forwardLookup, reverseLookup, lookupByTarget, clear"]}
{"id": "C17", "title": "Table behaves as a finite map of (row, column) to value", "statement": "After any sequence of insert/get/remove/clear, contains, get, row, column, cellSet, size agree with the abstract partial map that sequence denotes; get of an absent cell creates a default value.", "quantifier": "every operation sequence, all keys", "why_tests_cant": "unbounded histories", "anchors": ["include/phasar/Utils/Table.h"]}
{"id": "C18", "title": "Caching flow and edge functions is unobservable", "statement": "Every query to FlowEdgeFunctionCache returns the same flow/edge function the problem itself would return for those arguments (up to automatic zero adding), in any order of queries; each problem callback is invoked at most once per key.", "quantifier": "every query history", "why_tests_cant": "cache hits/misses depend on the history; key collisions only show for specific pairs", "anchors": ["include/phasar/DataFlow/IfdsIde/Solver/FlowEdgeFunctionCache.h"]}
{"id": "C19", "title": "Flow-function factories satisfy their documented equations", "statement": "identityFlow, generateFlow(If), generateManyFlows, killFlow(If), killManyFlows, killAllFlows, generateFlowAndKillAllOthers, generateManyFlowsAndKillAllOthers, transferFlow and unionFlows compute exactly the target sets given in their documentation, for every source fact, and so are distributive.", "quantifier": "every source fact and every parameter", "why_tests_cant": "infinite fact domain; corner cases where parameters coincide", "anchors": ["include/phasar/DataFlow/IfdsIde/FlowFunctions.h"]}
{"id": "C20", "title": "Adding zero automatically keeps all other flows", "statement": "The zero-adding wrapper returns the user's flow function's targets plus the zero fact for the zero source, and exactly the user's targets for any other source.", "quantifier": "every user flow function and source fact", "why_tests_cant": "all user functions", "anchors": ["include/phasar/DataFlow/IfdsIde/FlowFunctions.h: ZeroedFlowFunction", "include/phasar/DataFlow/IfdsIde/Solver/FlowEdgeFunctionCache.h"]}
{"id": "C21", "title": "Initial seeds are a map with last-write-wins", "statement": "After any sequence of addSeed calls, getSeeds() holds for each (statement,fact) exactly the last value added, countInitialSeeds() equals the number of distinct (statement,fact) pairs, and containsInitialSeedsFor(n) holds iff a seed was added at n; solving adds the zero fact with bottom where missing and changes nothing else.", "quantifier": "every sequence of addSeed calls", "why_tests_cant": "unbounded histories", "anchors": ["include/phasar/DataFlow/IfdsIde/InitialSeeds.h", "include/phasar/DataFlow/IfdsIde/Solver/IDESolver.h: submitInitialSeeds"]}
{"id": "C22", "title": "Result accessors agree with each other", "statement": "resultsAt(n), resultAt(n,d), ifdsResultsAt(n), containsNode and getAllResultEntries present the same table: d is a key of resultsAt(n) iff it is in ifdsResultsAt(n), resultAt(n,d) is the mapped value, and stripping zero removes exactly the zero fact.", "quantifier": "every result table, statement and fact", "why_tests_cant": "all tables, including facts that are absent", "anchors": ["include/phasar/DataFlow/IfdsIde/SolverResults.h", "include/phasar/DataFlow/IfdsIde/Solver/IFDSSolver.h"]}
{"id": "C23", "title": "Intra-procedural monotone solver computes the data-flow solution", "statement": "When IntraMonoSolver::solve() returns, getResultsAt(n) is a solution of the data-flow equations (out-fact of n from its in-fact, in-facts merged over all predecessors), and for monotone flows the least one.", "quantifier": "every CFG, every flow function, every merge operator", "why_tests_cant": "all programs and loops; fixpoints reached only after arbitrarily many iterations", "anchors": ["include/phasar/DataFlow/Mono/Solver/IntraMonoSolver.h"]}
{"id": "C24", "title": "Inter-procedural monotone solver covers every realizable path", "statement": "When InterMonoSolver::solve() returns, for every call string of length at most K, getResultsAt(n) covers the facts generated along every realizable path to n.", "quantifier": "every ICFG, call-string limit and monotone problem", "why_tests_cant": "all contexts, including contexts that coincide under the limit", "anchors": ["include/phasar/DataFlow/Mono/Solver/InterMonoSolver.h"]}
{"id": "C25", "title": "Call-string contexts hold the most recent K call sites", "statement": "After any sequence of push_back/pop_back the context equals the last K pushed and not popped call sites; its length never exceeds K; equality and ordering are consistent and depend only on that sequence.", "quantifier": "every K and every push/pop sequence", "why_tests_cant": "all K including 0 and all histories", "anchors": ["include/phasar/DataFlow/Mono/Contexts/CallStringCTX.h"]}
{"id": "C26", "title": "BitVectorSet behaves as a set", "statement": "insert, erase, count, size, setUnion, setIntersect, includes, clear, iteration and == agree with mathematical sets for every history of operations on every number of sets over a shared element type; equal sets have equal hashes.", "quantifier": "every operation history over several sets sharing the element numbering", "why_tests_cant": "bit positions depend on the global history of all sets", "anchors": ["include/phasar/Utils/BitVectorSet.h"]}
{"id": "C27", "title": "EquivalenceClassMap maps each key to the value it was inserted with", "statement": "After any sequence of insertions, find(k) yields the value inserted for k, keys with equal values share one class, and numEquivalenceClasses equals the number of distinct values.", "quantifier": "every insertion sequence", "why_tests_cant": "unbounded histories; re-insertions of a key", "anchors": ["include/phasar/Utils/EquivalenceClassMap.h"]}
{"id": "C28", "title": "StableVector is a sequence whose elements never move", "statement": "After any sequence of emplace_back, pop_back, pop_back_n, clear, shrink_to_fit, copy, move and swap, size, operator[], front, back and iteration agree with the corresponding list; the address of an element never changes while it is in the vector; no operation touches freed memory.", "quantifier": "every operation sequence and every size", "why_tests_cant": "block boundaries occur at unbounded sizes; reference stability is about all histories", "anchors": ["include/phasar/Utils/StableVector.h"]}
{"id": "C29", "title": "Graph minimization preserves the rooted labelled paths", "statement": "createEquivalentGraphFrom(minimizeGraph(G)) has exactly the same set of node-label sequences along paths from roots as G, and never more nodes.", "quantifier": "every finite (possibly cyclic) labelled graph", "why_tests_cant": "all graphs, all paths", "anchors": ["include/phasar/Utils/DFAMinimizer.h", "include/phasar/Utils/AdjacencyList.h"]}
{"id": "C30", "title": "AdjacencyList edit operations have multiset semantics", "statement": "addNode/addEdge/addRoot/removeEdge/removeRoot/dedupOutEdges/pop change exactly the mentioned node, edge or root and leave all other edges (as multisets) unchanged.", "quantifier": "every graph and operation sequence", "why_tests_cant": "unbounded histories; swap-with-last removal", "anchors": ["include/phasar/Utils/AdjacencyList.h"]}
{"id": "C31", "title": "Alias sets always form a partition", "statement": "After any sequence of pointer additions and introduceAlias calls, alias(p,q) is an equivalence relation on the known pointers - the smallest one containing the introduced pairs - getAliasSet(p) is p's class, and no returned set refers to released storage.", "quantifier": "every sequence of merges", "why_tests_cant": "union-find style merging; dangling references depend on merge order", "anchors": ["lib/PhasarLLVM/Pointer/LLVMAliasSet.cpp: addSingletonAliasSet, mergeAliasSets, introduceAlias, alias, getAliasSet", "include/phasar/Pointer/AliasSetOwner.h"]}
{"id": "C32", "title": "Merging two alias analyses joins their equivalences", "statement": "After A.mergeWith(B), two pointers alias in A if they aliased in A or in B, and alias remains symmetric and transitive.", "quantifier": "every pair of alias-set states", "why_tests_cant": "depends on how the classes of both overlap", "anchors": ["lib/PhasarLLVM/Pointer/LLVMAliasSet.cpp: mergeWith"]}
{"id": "C33", "title": "Callers and callees are inverse views of the call graph", "statement": "At any time, call site c is listed in getCallersOf(f) exactly as often as f is listed in getCalleesOfCallAt(c), and each equals the number of addCallEdge(c,f) calls so far; unknown vertices have no callers/callees; no reference handed out dangles while at most the reserved number of functions is added.", "quantifier": "every sequence of builder operations", "why_tests_cant": "unbounded histories; storage reallocation", "anchors": ["include/phasar/ControlFlow/CallGraph.h"]}
{"id": "C34", "title": "Call graph survives serialization", "statement": "Deserializing the JSON printed for a call graph yields the same callers and callees for every function and call site, and no edge that was not in the graph.", "quantifier": "every call graph, every function/instruction naming", "why_tests_cant": "all graphs; malformed entries", "anchors": ["include/phasar/ControlFlow/CallGraph.h: printAsJson, deserialize", "lib/ControlFlow/CallGraphData.cpp"]}
{"id": "C35", "title": "Linear constant analysis computes the program's arithmetic", "statement": "If the analysis folds a binary instruction on constants to constant r, then executing that LLVM instruction on those operands yields r; folding never triggers undefined behaviour.", "quantifier": "all opcodes, bit widths and operand values", "why_tests_cant": "2^128 operand pairs", "anchors": ["lib/PhasarLLVM/DataFlow/IfdsIde/Problems/IDELinearConstantAnalysis.cpp: executeBinOperation, BinOp"]}
{"id": "C36", "title": "Linear-constant edge functions satisfy the edge-function contract", "statement": "Binary-operation, constant and composed edge functions of the linear constant analysis are monotone and distributive over non-top values, their composition is composition of functions and their join is an upper bound.", "quantifier": "all edge functions built by any sequence of compositions/joins and all lattice values", "why_tests_cant": "unbounded compositions", "anchors": ["lib/PhasarLLVM/DataFlow/IfdsIde/Problems/IDELinearConstantAnalysis.cpp: BinOp, LCAEdgeFunctionComposer, GenConstant"]}
{"id": "C37", "title": "Instruction-interaction edge functions satisfy the edge-function contract", "statement": "For the edge functions that add, kill or replace labels, extend(f,g) is composition and combine(f,g) is a pointwise upper bound.", "quantifier": "all label sets and all edge-function pairs", "why_tests_cant": "infinite label sets", "anchors": ["include/phasar/PhasarLLVM/DataFlow/IfdsIde/Problems/IDEInstInteractionAnalysis.h: IIAAKillOrReplaceEF, IIAAAddLabelsEF, extend, combine, joinImpl"]}
{"id": "C38", "title": "Typestate analysis follows the protocol automaton", "statement": "The state reported for a handle after a sequence of API calls is the automaton's state after that sequence; composing/joining the edge functions of the calls agrees with running them in order; states join to bottom when they differ.", "quantifier": "all call sequences and all states", "why_tests_cant": "unbounded sequences", "anchors": ["include/phasar/PhasarLLVM/DataFlow/IfdsIde/Problems/IDETypeStateAnalysis.h", "lib/PhasarLLVM/DataFlow/IfdsIde/Problems/TypeStateDescriptions/CSTDFILEIOTypeStateDescription.cpp"]}
{"id": "C39", "title": "Generalized constant sets over-approximate the possible values", "statement": "For sets of constants bounded by the configured maximum, join covers both arguments, binary operations on sets cover the operation on every pair of members, and exceeding the bound yields the unknown value.", "quantifier": "all operand sets and all operations", "why_tests_cant": "all integer values and set sizes", "anchors": ["lib/PhasarLLVM/DataFlow/IfdsIde/Problems/IDEGeneralizedLCA/EdgeValue.cpp: operator+, operator-, performBinOp, join, performTypecast, operator<"]}
{"id": "C40", "title": "Sanitizer lattice of the extended taint analysis is a join lattice", "statement": "Joining taint edge values is commutative, associative and idempotent, never forgets that a path was unsanitized, and the transfer/kill edge functions are monotone and equal only if they behave equally.", "quantifier": "all values and all orders of joins", "why_tests_cant": "all sanitizer instructions and orderings", "anchors": ["lib/PhasarLLVM/DataFlow/IfdsIde/Problems/ExtendedTaintAnalysis/EdgeDomain.cpp", "lib/PhasarLLVM/DataFlow/IfdsIde/Problems/ExtendedTaintAnalysis/TransferEdgeFunction.cpp", "lib/PhasarLLVM/DataFlow/IfdsIde/Problems/ExtendedTaintAnalysis/KillIfSanitizedEdgeFunction.cpp"]}
{"id": "C41", "title": "Classifying special member functions terminates", "statement": "getSpecialMemberFunctionType(F) returns for every function name.", "quantifier": "all function names", "why_tests_cant": "non-termination only on names of a particular shape", "anchors": ["lib/PhasarLLVM/ControlFlow/LLVMBasedCFG.cpp: getSpecialMemberFunctionType"]}
{"id": "C42", "title": "Successors and predecessors are inverse", "statement": "m is in getSuccsOf(n) iff n is in getPredsOf(m), with debug instructions ignored or not, and getAllControlFlowEdges lists exactly these pairs.", "quantifier": "all functions (lists of blocks with arbitrary branches and debug instructions)", "why_tests_cant": "all CFG shapes", "anchors": ["lib/PhasarLLVM/ControlFlow/LLVMBasedCFG.cpp: getPredsOf, getSuccsOf, getAllControlFlowEdges, isBranchTarget"]}
{"id": "C43", "title": "Edge-function handles never leak or dangle", "statement": "For any sequence of constructing, copying, moving, assigning and destroying EdgeFunction handles (heap-allocated or cache-owned), an allocation is freed exactly when its last handle goes away and is never accessed afterwards.", "quantifier": "every operation sequence over any number of handles and objects", "why_tests_cant": "all aliasing histories incl. self-assignment", "anchors": ["include/phasar/DataFlow/IfdsIde/EdgeFunction.h", "include/phasar/DataFlow/IfdsIde/EdgeFunctionSingletonCache.h"]}
{"id": "C44", "title": "Type hierarchy answers are transitive closures", "statement": "getSubTypes(T) is exactly the set of types reachable from T via inheritance (including T), isSubType agrees with it, and super types are the inverse relation.", "quantifier": "every inheritance graph", "why_tests_cant": "all graphs including diamonds and deep chains", "anchors": ["lib/PhasarLLVM/TypeHierarchy/DIBasedTypeHierarchy.cpp", "lib/PhasarLLVM/TypeHierarchy/LLVMTypeHierarchy.cpp"]}
{"id": "C45", "title": "Call-graph construction covers all functions reachable from the entry points", "statement": "For every function reachable from an entry point through the resolver's answers, the constructed call graph contains the edges for all its call sites, independent of the order functions are processed.", "quantifier": "every module, resolver and entry-point set", "why_tests_cant": "worklist order and on-the-fly resolution", "anchors": ["lib/PhasarLLVM/ControlFlow/LLVMBasedCallGraphBuilder.cpp"]}
{"id": "C46", "title": "remove_by_index removes exactly the indexed elements", "statement": "For an ascending list of indices within a range, remove_by_index moves the elements whose index is not listed to the front, keeping their order, and returns the end of them; it never reads an element that was already moved away.", "quantifier": "every range and every ascending list of indices", "why_tests_cant": "all patterns of gaps and runs; the random-access and the other version differ", "anchors": ["include/phasar/Utils/Utilities.h:195-247", "lib/PhasarLLVM/Pointer/LLVMAliasSet.cpp:404"]}
{"id": "C47", "title": "The backward CFG mirrors the forward CFG", "statement": "The predecessors in the backward CFG are the successors in the forward CFG and vice versa, plus the artificial return node of a call; the listed edges are exactly those.", "quantifier": "every function", "why_tests_cant": "all shapes of functions, including debug instructions and static initialisers", "anchors": ["lib/PhasarLLVM/ControlFlow/LLVMBasedBackwardCFG.cpp"]}
{"id": "C48", "title": "StringIDLess is a strict order on ids", "statement": "StringIDLess is a strict weak order that puts numeric ids before the others, orders numeric ids by value and the others lexicographically, so that two different ids are never equivalent unless they denote the same number.", "quantifier": "every triple of strings", "why_tests_cant": "order laws are universally quantified; used as comparator of std::map and std::sort", "anchors": ["lib/Utils/Utilities.cpp:98-115", "include/phasar/Utils/DOTGraph.h:133"]}
{"id": "C49", "title": "The linear constant analysis reports only constants that hold in every execution", "statement": "When the IDE solver finishes on the linear constant analysis of a program, then for every execution, at every statement it passes, each variable or memory location has a result, and the result is bottom or a constant equal to its value; and the solver finishes on every finite program.", "quantifier": "every finite program, every execution (any number of steps, calls, recursion), every order in which the solver works", "why_tests_cant": "unbounded executions and arbitrary programs; relates the analysis' answers to what programs do", "anchors": ["lib/PhasarLLVM/DataFlow/IfdsIde/Problems/IDELinearConstantAnalysis.cpp:294-586", "include/phasar/DataFlow/IfdsIde/Solver/IDESolver.h"]}
{"id": "C50", "title": "The LLVM flow-function templates map facts across calls and stores as documented", "statement": "Across a call, along a call and at a return, a fact flows exactly to the zero fact, globals, matching parameters or arguments, variable-argument lists and the call result that the predicates and flags allow; a store kills its pointer operand and generates it from the facts the predicate accepts.", "quantifier": "every call, callee, predicate, flag setting and fact", "why_tests_cant": "arbitrary predicates, argument lists and flag combinations", "anchors": ["include/phasar/PhasarLLVM/DataFlow/IfdsIde/LLVMFlowFunctions.h"]}
{"id": "C51", "title": "The taint analysis reports every leak of an execution", "statement": "When the IFDS solver finishes on the taint analysis of a program, every argument that holds tainted data when an execution calls a sink with it is among the reported leaks; the solver finishes on every finite program; and without sources nothing is reported.", "quantifier": "every finite program, taint configuration and sound alias information, every execution (any number of steps, calls, recursion, external functions), every order in which the solver works", "why_tests_cant": "unbounded executions of arbitrary programs; relates the analysis' answers to what programs do with tainted data", "anchors": ["lib/PhasarLLVM/DataFlow/IfdsIde/Problems/IFDSTaintAnalysis.cpp:56-504", "include/phasar/PhasarLLVM/TaintConfig/TaintConfigUtilities.h:27-87", "include/phasar/DataFlow/IfdsIde/Solver/IDESolver.h"]}
{"id": "C52", "title": "The recorded exploded supergraph contains the flows of the solver and nothing else", "statement": "After the solver reported its edges through saveEdges in any order a solver can produce, every target has a node; following a predecessor link always corresponds to a reported edge between pairs whose nodes are linked that way, a node without predecessor starts at a seed (or where zero comes from zero); every reported flow that does not start at a seed is a step back in the graph, so that every path of reported flows from a non-seed is a chain in the graph.", "quantifier": "every sequence of saveEdges calls that respects causality, every assignment of statements to blocks", "why_tests_cant": "arbitrary interleavings of edge reports with node merging inside blocks", "anchors": ["include/phasar/DataFlow/PathSensitivity/ExplodedSuperGraph.h:62-376", "include/phasar/DataFlow/IfdsIde/Solver/PathAwareIDESolver.h:30-70"]}
{"id": "C53", "title": "The path graph extracted from the exploded supergraph has exactly the ways back as paths", "statement": "For every exploded supergraph, filter and query, the graph returned by pathsDagToAll has no cycles and every root-to-leaf path of it is, in order of execution, a way from an end of the exploded supergraph to the queried statement; a single query that has a way back gets a path; on acyclic supergraphs without end filters every way back has a path; the extraction ends unless plain predecessor links form a cycle; reverseGraph turns every edge around and assertIsDAG tells whether a cycle can be reached.", "quantifier": "every finite exploded supergraph (cycles included), every filter, every query", "why_tests_cant": "arbitrary graphs with cycles; a cache with rollback of half-built vertices", "anchors": ["include/phasar/DataFlow/PathSensitivity/PathSensitivityManagerMixin.h:40-330", "include/phasar/DataFlow/PathSensitivity/PathSensitivityManagerBase.h:45-83", "include/phasar/Utils/GraphTraits.h", "include/phasar/DataFlow/PathSensitivity/PathTracingFilter.h"]}
{"id": "C54", "title": "Paths to a fact are reported exactly if calls and returns match and the constraints are satisfiable", "statement": "On the path graphs of C53, and for every SMT solver that is sound, removing unsatisfiable edges keeps every path whose constraints have a model, and the constraint it returns holds in every model of a path; pathsTo then reports every root-to-leaf path at most once, only paths of the graph on which each return goes back to the last open call and whose constraints the solver did not refute, with a constraint equivalent to that of their edges; and all satisfiable such paths if the threshold is large enough.", "quantifier": "every acyclic path graph, program, constraint of edges and sound solver with arbitrary answers 'unknown'", "why_tests_cant": "arbitrary graphs, call structures and solver answers; state saved and restored around every recursive call", "anchors": ["lib/PhasarLLVM/DataFlow/PathSensitivity/Z3BasedPathSensitivityManager.cpp:30-578", "include/phasar/PhasarLLVM/DataFlow/PathSensitivity/Z3BasedPathSensitvityManager.h:92-177"]}
{"id": "C55", "title": "The constraint of an edge holds exactly if the branch takes the edge", "statement": "The translation of a conditional branch to a Z3 constraint gives the same result whatever was translated before; for comparisons and Boolean operations on integer, Boolean and pointer variables, array elements, results of calls and constants, behind at most one cast that keeps the signed value, computed without overflow and without dividing negative numbers, the constraint holds in a model with the values of the variables exactly if the branch goes to that block; a branch on a phi has a valid constraint; every constant in a constraint belongs to a listed variable; so the constraints of every step of a path that is taken hold.", "quantifier": "every function, cache state reached by earlier translations, branch, values of the instructions and model of the constants", "why_tests_cant": "bit-vector against integer arithmetic for all widths and operands; caches filled by arbitrary earlier queries", "anchors": ["lib/PhasarLLVM/DataFlow/PathSensitivity/LLVMPathConstraints.cpp:21-659", "lib/PhasarLLVM/ControlFlow/LLVMBasedCFG.cpp:215-225"]}
{"id": "C56", "title": "Type graphs return exactly the types that are reachable along links", "statement": "After any sequence of addLink and getTypes calls on a CachedTypeGraph in which no link leads to a literal type, getTypes(T) returns exactly the types reachable from T along the links added so far, if different types have different names; in general the types that the reachable names stand for, a name standing for the first type that was mentioned with it. The answers do not depend on the order of the links, addLink returns true exactly for a new link, the LazyTypeGraph answers the same, and aggregateTypes computes the same sets for links without cycles.", "quantifier": "every sequence of calls and every set of struct types", "why_tests_cant": "the propagation through the reversed graph has to be complete for every order in which links, cycles and queries arrive", "anchors": ["lib/PhasarLLVM/Pointer/TypeGraphs/CachedTypeGraph.cpp:31-157", "lib/PhasarLLVM/Pointer/TypeGraphs/LazyTypeGraph.cpp:31-102", "include/phasar/PhasarLLVM/Pointer/TypeGraphs/CachedTypeGraph.h:37-104"]}
{"id": "C57", "title": "Call resolvers return exactly the functions their tables, types and alias sets allow, and miss none for primary virtual tables", "statement": "A function is considered for an indirect call exactly if numbers of arguments, return types and parameter types fit. CHA returns exactly the fitting, non-placeholder functions at the called index in the tables of all types derived from the receiver type; RTA exactly those of allocated types (CHA's if there are none); DTA exactly those of the types reachable along casts (CHA's if there are none); OTF exactly those of the tables in the alias set, and for function pointers exactly the fitting functions in the alias set or in aggregates reachable from it; other function pointers are resolved to the fitting functions whose address is taken. If the dynamic type of the receiver is derived from its static type and the function is called through the primary virtual table, CHA returns it, and RTA if the type is allocated. The search through aggregates terminates.", "quantifier": "every module, virtual table, type hierarchy, set of casts and allocations, alias set and call", "why_tests_cant": "soundness depends on every shape of virtual table, class hierarchy and signature that a compiler may emit", "anchors": ["lib/PhasarLLVM/ControlFlow/Resolver/Resolver.cpp:41-184", "lib/PhasarLLVM/ControlFlow/Resolver/CHAResolver.cpp:43-81", "lib/PhasarLLVM/ControlFlow/Resolver/RTAResolver.cpp:45-155", "lib/PhasarLLVM/ControlFlow/Resolver/DTAResolver.cpp:43-220", "lib/PhasarLLVM/ControlFlow/Resolver/OTFResolver.cpp:68-281", "lib/PhasarLLVM/ControlFlow/LLVMVFTableProvider.cpp:14-65", "lib/PhasarLLVM/TypeHierarchy/LLVMVFTable.cpp:27-105", "lib/PhasarLLVM/Utils/LLVMShorthands.cpp:69-130"]}
{"id": "C58", "title": "The uninitialized-variables analysis reports every use of an undefined value, under stated restrictions, and exactly what its flow functions carry", "statement": "A statement (no call, store, allocation, cast, phi or address computation) with a successor is reported with an operand exactly if the operand is an undefined literal or a value the flow functions carry there on a valid path, and no undefined literal comes before it. If no local is a structure or vector, functions with bodies are called by name with call or invoke and without additional arguments, undefined literals are neither passed nor returned, functions without bodies initialize what is passed to them and undefined values are not stored in globals or through aliases, then every statement that computes with or loads an undefined value in an execution is reported. Without locals and undefined literals nothing is reported. The analysis terminates on finite programs. The source-level report contains exactly the uses with a line.", "quantifier": "every program, execution and order of the worklist", "why_tests_cant": "the claim is about all executions of all programs, through loops, recursion and out-parameters", "anchors": ["lib/PhasarLLVM/DataFlow/IfdsIde/Problems/IFDSUninitializedVariables.cpp:38-215", "lib/PhasarLLVM/DataFlow/IfdsIde/Problems/IFDSUninitializedVariables.cpp:217-298", "lib/PhasarLLVM/DataFlow/IfdsIde/Problems/IFDSUninitializedVariables.cpp:300-369", "lib/PhasarLLVM/DataFlow/IfdsIde/Problems/IFDSUninitializedVariables.cpp:440-479"]}
{"id": "C59", "title": "Depth limit and minimisation leave the paths of a query as they are, up to missing beginnings", "statement": "pathsDagToAll returns a graph for every combination of DAGDepthThreshold and MinimizeDAG: no access is out of bounds and no fatal error is reported. Minimising keeps exactly the label sequences of the paths from roots to leaves, adds no vertices and no cycles. reverseDAG with limit d returns exactly the vertices at most d edges away from the queried statement; its paths are exactly the paths cut at the first vertex d edges away; each is the end of a path without limit, and each path without limit keeps an end. The graph of one fact has exactly one leaf, so that pathsTo reports every matched, satisfiable way back (its end, with a limit).", "quantifier": "every graph, fact, option and limit", "why_tests_cant": "all graphs with all their paths, and all limits; the buffers of reverseDAG are sized by an argument about all runs", "anchors": ["include/phasar/DataFlow/PathSensitivity/PathSensitivityManagerBase.h:85-184", "include/phasar/DataFlow/PathSensitivity/PathSensitivityManagerMixin.h:73-149", "include/phasar/DataFlow/PathSensitivity/PathSensitivityConfig.h:17-47"]}
{"id": "C60", "title": "Ids of values are dense, stable, and lead back to the values", "statement": "LLVMProjectIRDB gives ids to the global variables and instructions of a module by position: looking up the id of a value and the value of an id are inverse to each other, functions inserted later do not change the ids given before, getInstruction returns null exactly for ids of global variables and numbers that are no id. The id of a value as a string (getMetaDataID) determines the value, and fromMetaDataId finds it from that string.", "quantifier": "every module, every sequence of inserted functions, every value", "why_tests_cant": "all modules with all names of functions, and all histories of insertions; the bounds test relies on unsigned overflow", "anchors": ["lib/PhasarLLVM/DB/LLVMProjectIRDB.cpp:128-302", "lib/PhasarLLVM/Utils/LLVMShorthands.cpp", "include/phasar/PhasarLLVM/DB/LLVMProjectIRDB.h"]}
{"id": "C61", "title": "Alias sets that are saved as JSON and loaded again answer the same queries", "statement": "Writing the alias sets of LLVMAliasSet with getAsJson and constructing a LLVMAliasSet from the result succeeds and gives the same alias sets for all values, the same analysed functions, and the same results for whatever is computed afterwards.", "quantifier": "every history of the alias sets, every module", "why_tests_cant": "the sets result from arbitrary sequences of merges; which values survive depends on their kinds and on names of functions", "anchors": ["lib/PhasarLLVM/Pointer/LLVMAliasSet.cpp:98-151", "lib/PhasarLLVM/Pointer/LLVMAliasSet.cpp:699-723"]}
{"id": "C62", "title": "The slot tracker of a module lives exactly as long as a database of the module", "statement": "For every sequence of constructions and destructions of databases, uses and updates of slot trackers: the tracker of a module exists as long as a database of the module does and is destroyed with the last one; no reference count underflows or is read uninitialised.", "quantifier": "every legal history over any number of modules", "why_tests_cant": "reading an uninitialised counter need not fail in a test; all interleavings of several databases of one module", "anchors": ["lib/PhasarLLVM/Utils/LLVMShorthands.cpp:495-556", "lib/PhasarLLVM/DB/LLVMProjectIRDB.cpp:171-175"]}
{"id": "C63", "title": "The model of global constructors and destructors runs what the C++ runtime runs, in its order", "statement": "GlobalCtorsDtorsModel::buildModel generates a function that runs the global constructors by ascending priority, then one of the entry points with its arguments, then after main the registered (__cxa_atexit) destructors in reverse order and the global destructors by descending priority. All generated functions are known to the database and to isPhasarGenerated, and building the model again for other entry points replaces it.", "quantifier": "every module, every list of entry points, every execution of the generated code", "why_tests_cant": "arbitrary priorities, several entry points, mixtures of registered and listed destructors; the disagreements need particular signatures or a second call", "anchors": ["lib/PhasarLLVM/ControlFlow/GlobalCtorsDtorsModel.cpp", "lib/PhasarLLVM/ControlFlow/EntryFunctionUtils.cpp:40-72", "lib/PhasarLLVM/DB/LLVMProjectIRDB.cpp:238-256"]}
{"id": "C64", "title": "The typestate analysis reports the state of every object that a variable points to, and every error", "statement": "For every program that uses an API described by a typestate automaton, every execution and every variable that points to an object: the result of the analysis at the statement describes the state the automaton is in for this object. Variables that hold an object in the error state are reported. The caches of alias sets do not change the answers. The analysis terminates.", "quantifier": "every program with calls, recursion, loads and stores, every alias information, every automaton, every execution", "why_tests_cant": "all programs, executions and alias sets; the disagreements need particular alias sets, orders of queries or joins of paths", "anchors": ["lib/PhasarLLVM/DataFlow/IfdsIde/Problems/IDETypeStateAnalysis.cpp", "include/phasar/PhasarLLVM/DataFlow/IfdsIde/Problems/IDETypeStateAnalysis.h:400-556", "lib/PhasarLLVM/DataFlow/IfdsIde/Problems/TypeStateDescriptions/CSTDFILEIOTypeStateDescription.cpp"]}
{"id": "C65", "title": "An abstract memory location is canonical, bounded and stands for the memory it was made for", "statement": "For every sequence of calls of the factory of abstract memory locations: no assertion fails and nothing out of range is touched; a location with given base, offsets and kind (exact or over-approximation) exists once and stays what it is; no location is longer than the bound. The location created for a value leads to the value in every run; pointer arithmetic, indirections, stores, calls and returns turn a location that stands for a tainted value into one that stands for it afterwards; the answer to a call does not depend on earlier calls; locations that stand for the same memory are recognised as equivalent, and must-aliases are really overwritten.", "quantifier": "all sequences of factory calls, all values built from loads, casts and address computations, all memories and all unknown indices, all bounds", "why_tests_cant": "all histories and memories; disagreements need a nonzero field offset, an unknown index, or a particular order of calls", "anchors": ["lib/PhasarLLVM/DataFlow/IfdsIde/Problems/ExtendedTaintAnalysis/AbstractMemoryLocation.cpp", "lib/PhasarLLVM/DataFlow/IfdsIde/Problems/ExtendedTaintAnalysis/AbstractMemoryLocationFactory.cpp", "include/phasar/PhasarLLVM/DataFlow/IfdsIde/Problems/ExtendedTaintAnalysis/AbstractMemoryLocationFactory.h", "lib/PhasarLLVM/DataFlow/IfdsIde/Problems/IDEExtendedTaintAnalysis.cpp:160-190"]}
{"id": "C66", "title": "The extended taint analysis records every leak its facts show and drops only what was sanitized", "statement": "The flow functions of the extended taint analysis turn tainted facts at stores, memory intrinsics, phis, configured sources and sinks, calls and returns into exactly the facts stated, and record a leak exactly where a fact is equivalent to a leaked value. A fact counts as sanitized only if on every path an instruction overwrote it or is configured to sanitize it; a leak is dropped from the report if and only if it is sanitized before its load, and a leak with a path on which nothing was sanitized is reported. Every source that control flow reaches is seen, values computed from tainted ones are tainted, a configured sanitizer sanitizes, nothing that was dropped is printed, and the search for the load of a value ends.", "quantifier": "all programs, alias information, taint configurations, dominator orders and answers of the fact factory; all paths through the exploded supergraph; all results of the solver", "why_tests_cant": "all programs and paths; disagreements need an external function between source and sink, an overwritten pointer to a tainted value, a call without known callees, or a loop counter at a sink", "anchors": ["lib/PhasarLLVM/DataFlow/IfdsIde/Problems/IDEExtendedTaintAnalysis.cpp", "include/phasar/PhasarLLVM/DataFlow/IfdsIde/Problems/IDEExtendedTaintAnalysis.h", "lib/PhasarLLVM/DataFlow/IfdsIde/Problems/ExtendedTaintAnalysis/XTaintAnalysisBase.cpp"]}
{"id": "C67", "title": "The analysis of mutable memory locations finds every location written twice, whatever the order of the solver", "statement": "IFDSConstAnalysis marks a pointer as initialized when it is first asked for the flow function of a write, and answers later writes through aliases with the context-relevant aliases as facts. If an execution writes a location twice then, in whatever order the solver asks for flow functions, the location is a fact afterwards; facts are never lost within a function; locations whose writes do not meet are no facts; the results do not depend on the order; a second run of the solver gives the same result; the report lists the locations that are no facts.", "quantifier": "all programs, alias sets, orders of requests, executions", "why_tests_cant": "all orders of requests and all executions; disagreements need a loop, two branches, an object used twice", "anchors": ["lib/PhasarLLVM/DataFlow/IfdsIde/Problems/IFDSConstAnalysis.cpp", "include/phasar/PhasarLLVM/DataFlow/IfdsIde/Problems/IFDSConstAnalysis.h"]}
{"id": "C68", "title": "The intraprocedural uninitialized-variables analysis reports the variables that are uninitialized on every path", "statement": "IntraMonoUninitVariables with IntraMonoSolver terminates, and the variables reported after a statement are exactly those that are allocated on every path to the statement with nothing stored to them since.", "quantifier": "all functions, all paths", "why_tests_cant": "all control-flow graphs; disagreements need a loop, a store that is not a constant, undef", "anchors": ["lib/PhasarLLVM/DataFlow/Mono/Problems/IntraMonoUninitVariables.cpp", "include/phasar/PhasarLLVM/DataFlow/Mono/Problems/IntraMonoUninitVariables.h"]}
{"id": "C69", "title": "The intraprocedural constant propagation states only values that every execution has", "statement": "If IntraMonoFullConstantPropagation with IntraMonoSolver reports a constant for a variable or a register after a statement, then in every execution that has just executed the statement the variable contains, or the register holds, that constant.", "quantifier": "all functions, all executions, all 64-bit values", "why_tests_cant": "all executions and all values; disagreements need stores of unknown values, aliases, calls, narrow or unsigned arithmetic", "anchors": ["lib/PhasarLLVM/DataFlow/Mono/Problems/IntraMonoFullConstantPropagation.cpp", "include/phasar/PhasarLLVM/DataFlow/Mono/Problems/IntraMonoFullConstantPropagation.h"]}
{"id": "C70", "title": "A taint configuration file marks the values it describes", "statement": "A configuration that is written down is read back unchanged and malformed ones are rejected; and of a module exactly the values it describes are marked as sources, sinks and sanitizers: the parameters at the indices given and the calls of the functions with the name given, the local variables with the name and line given, the members of structs with the names given.", "quantifier": "all configurations, all modules", "why_tests_cant": "all modules; disagreements need overloads, uses of functions other than calls, several structs, several variables", "anchors": ["lib/PhasarLLVM/TaintConfig/TaintConfigBase.cpp", "lib/PhasarLLVM/TaintConfig/LLVMTaintConfig.cpp", "config/TaintConfigSchema.json"]}
{"id": "C71", "title": "Annotations in a module mark the values annotated", "statement": "The constructor of LLVMTaintConfig from annotated code marks exactly the values annotated with psr.source, psr.sink and psr.sanitizer with these categories: parameters, local variables, the calls of functions and the members of structs.", "quantifier": "all annotated modules", "why_tests_cant": "all modules; disagreements need assignments of parameters to annotated variables, annotated globals, annotations of other tools", "anchors": ["lib/PhasarLLVM/TaintConfig/LLVMTaintConfig.cpp", "lib/PhasarLLVM/Utils/Annotation.cpp"]}
{"id": "C72", "title": "The queries of a taint configuration agree with the marks and with each other", "statement": "At an instruction a taint configuration reports as generated, leaked and sanitized values exactly what the call-backs return and what is marked, the Boolean queries say whether there are any, the helper functions of the analyses collect the same values, getCategory gives a mark of the value, and makeInitialSeeds makes seeds of exactly the sources that can be.", "quantifier": "all configurations, all instructions, all callees", "why_tests_cant": "all configurations; disagreements need call-backs, source arguments, calls with fewer arguments than parameters", "anchors": ["lib/PhasarLLVM/TaintConfig/LLVMTaintConfig.cpp", "include/phasar/PhasarLLVM/TaintConfig/TaintConfigUtilities.h"]}
{"id": "C73", "title": "The secure heap propagation reports what has happened to OpenSSL's secure heap", "statement": "Solving IDESecureHeapPropagation reports, at every statement, nothing if no execution that arrives there has initialised the secure heap, INITIALIZED if some has and none has shut it down afterwards, and BOT if some has shut it down after initialising it; so where INITIALIZED is reported the heap is not shut down in any execution. The result does not depend on the order of the worklist, and the solver terminates.", "quantifier": "all programs that call the two functions directly, all executions, all worklist orders, all addresses of edge functions", "why_tests_cant": "all executions of all programs with recursion and loops; the disagreements with the intended meaning need a second initialisation, branches without initialisation, calls through pointers, functions that do not return", "anchors": ["lib/PhasarLLVM/DataFlow/IfdsIde/Problems/IDESecureHeapPropagation.cpp", "include/phasar/PhasarLLVM/DataFlow/IfdsIde/Problems/IDESecureHeapPropagation.h"]}
{"id": "C74", "title": "The instruction interaction analysis reports the labels of the instructions that influence a value", "statement": "Solving IDEInstInteractionAnalysisT reports for a value at a statement exactly the labels that chains of statements along realizable paths bring to it (allocation, constants stored, loads, stores, operands, calls, returns), unknown labels if and only if some chain brings unknown labels, and nothing if there is no chain; every label that a value has in an execution is reported; no edge function is asked for an edge it does not support; the result does not depend on the order of the worklist, and the solver terminates.", "quantifier": "all programs, alias information, label assignments, template arguments and realizable paths; all executions; all worklist orders", "why_tests_cant": "all paths of all programs with recursion and loops; the label sets that get lost need may-aliases, constants as operands or arguments, functions as values, mixed call targets, or results of library functions that meet constants", "anchors": ["include/phasar/PhasarLLVM/DataFlow/IfdsIde/Problems/IDEInstInteractionAnalysis.h"]}
{"id": "C75", "title": "The Hexastore returns exactly the matching triples that were put", "statement": "After any sequence of put, get returns for every pattern of given and open components exactly the triples that have been put and match, each once; to put a triple again changes nothing; each of the six indexes holds all triples.", "quantifier": "all sequences of put, all triples of names, all queries; both behaviours of AUTOINCREMENT the documentation of SQLite allows", "why_tests_cant": "unbounded histories; ids of rows of different tables coincide in small examples, and the wrong join condition of one query is hidden as long as no two nodes are connected by two edges", "anchors": ["lib/DB/Hexastore.cpp", "lib/DB/Queries.cpp", "include/phasar/DB/Hexastore.h"]}
{"id": "C76", "title": "The CFL alias analysis (Andersen) computes the value-alias relation of its graph", "statement": "For every function the analysis ends, and for every order of the work list: two different nodes are recorded exactly if a word of the grammar (reverse assignments, then assignments, with memory aliases between) connects them; the relation is symmetric; each state recorded stands for a word with just the steps its name says; the attributes are the least map that contains those of the graph, agrees on value aliases and hands attributes on to the level below; the answers are symmetric and do not depend on the order.", "quantifier": "all functions (graphs), all orders in which the work list is processed, all pairs of nodes", "why_tests_cant": "a fixpoint of a recursive grammar with unbounded nesting of loads and stores; hash order of the sets", "anchors": ["lib/PhasarLLVM/Pointer/external/llvm/CFLAndersAliasAnalysis.cpp", "lib/PhasarLLVM/Pointer/external/llvm/CFLGraph.h"]}
{"id": "C77", "title": "The CFL alias analysis does not separate values that hold the same pointer", "statement": "If two values of a function hold a pointer to the same object at some point of an execution, the analysis does not answer NoAlias for them.", "quantifier": "all functions, all executions (instructions in any order, any behaviour of callees allowed by their attributes), all pairs of values", "why_tests_cant": "needs executions in which callees write to escaped memory or return their arguments; unbounded number of objects and steps", "anchors": ["lib/PhasarLLVM/Pointer/external/llvm/CFLAndersAliasAnalysis.cpp", "lib/PhasarLLVM/Pointer/external/llvm/CFLGraph.h"]}
{"id": "C78", "title": "StratifiedSets: merging keeps chains of sets and puts together exactly what the requests demand", "statement": "For every history of add, addAbove, addBelow, addWith and noteAttributes, each about a value already there: building ends without a failed assertion; every value is in one set; values put together are in one set and a value put below or above another one is in the set below or above it (or the same one); the links above and below form finite chains, each the inverse of the other; nothing is merged that the requests do not demand; the attributes of a set are those noted for values of it and of the sets above. Values put below members of one set are in one set, and the order of the requests does not matter.", "quantifier": "all histories of requests, all values", "why_tests_cant": "union-find over a doubly linked structure with path compression and merging in both directions; needs arbitrary interleavings and cycles", "anchors": ["lib/PhasarLLVM/Pointer/external/llvm/StratifiedSets.h"]}
{"id": "C79", "title": "The unification-based CFL alias analysis (Steensgaard) is a coarser, sound version of the inclusion-based one", "statement": "For every function and order of the hash table the analysis gives a result; values are in one set exactly if unification of the assignments demands it; the attributes are those of what is unified or above; it answers NoAlias only where the inclusion-based analysis does, hence only if no execution makes the two values point to the same object; the answers do not depend on the order of the hash table.", "quantifier": "all functions, all orders of the hash table, all pairs of values, all executions", "why_tests_cant": "order of a hash table of pointers; unbounded levels of indirection; cyclic data structures", "anchors": ["lib/PhasarLLVM/Pointer/external/llvm/CFLSteensAliasAnalysis.cpp", "lib/PhasarLLVM/Pointer/external/llvm/StratifiedSets.h", "lib/PhasarLLVM/Pointer/external/llvm/CFLGraph.h"]}
{"id": "C80", "title": "The alias graph reports the allocation sites connected to a pointer", "statement": "After any number of queries and introduced aliases, the allocation sites reported for a pointer are exactly those among the pointers connected to it by answers of the alias analysis and by introduced aliases; the answer does not depend on what was asked before; merging another graph keeps the answers of both; alias sets contain exactly the connected pointers.", "quantifier": "all programs, all sequences of queries and introduced aliases, all pointers, all pairs of graphs merged", "why_tests_cant": "depends on the history of queries (functions are analysed on demand and share one graph) and on paths of any length", "anchors": ["lib/PhasarLLVM/Pointer/LLVMAliasGraph.cpp", "include/phasar/PhasarLLVM/Pointer/LLVMAliasGraph.h", "lib/PhasarLLVM/Pointer/LLVMAliasInfo.cpp"]}
{"id": "C81", "title": "The exported graph is the inter-procedural control-flow graph", "statement": "The dot and the JSON export of the inter-procedural control-flow graph contain exactly its edges: control flow within the exported functions, from each call to the beginning of every callee with a body, from the exits of the callee to what follows the call, and past calls that reach a declaration or have no known callee; the dot export labels the two ways out of a branch and of an invoke, and every edge joins nodes that are written.", "quantifier": "all modules and call graphs, with debug instructions ignored or kept, both exports, both JSON variants", "why_tests_cant": "the set of edges is quantified over all modules; unit tests compare the export of a few files", "anchors": ["lib/PhasarLLVM/ControlFlow/LLVMBasedICFGExportsImpl.cpp"]}
{"id": "C82", "title": "Every object held by a MaybeUniquePtr has one owner and is deleted once", "statement": "As long as ownership is handed over only by who has it, no sequence of constructions, moves, swaps, assignments, releases, resets and destructions of MaybeUniquePtrs deletes an object twice, loses one, or leaves one with two owners; each operation changes exactly the pointers it is meant to change.", "quantifier": "all sequences of operations on any number of pointers, unique_ptrs and raw pointers", "why_tests_cant": "ownership is a property of all histories; double deletion and leaks show up only in particular interleavings", "anchors": ["include/phasar/Utils/MaybeUniquePtr.h"]}
{"id": "C83", "title": "The inter-procedural monotone taint analysis finds every tainted value that is moved, stored, loaded and passed", "statement": "Every value that is tainted in an execution, starting from the parameters of main and the configured sources, through loads, stores, casts, calls and returns, is a fact of the analysis at the same instruction, and every tainted value arriving at a sink is recorded as a leak, unless it was sanitized by the callee; the flow functions are distributive.", "quantifier": "all programs with recursion and indirect calls, all configurations, all executions", "why_tests_cant": "taint moves along unboundedly long inter-procedural paths; a lost fact shows only on particular combinations of calls, stores and returns", "anchors": ["lib/PhasarLLVM/DataFlow/Mono/Problems/InterMonoTaintAnalysis.cpp", "include/phasar/PhasarLLVM/DataFlow/Mono/Problems/InterMonoTaintAnalysis.h", "include/phasar/PhasarLLVM/TaintConfig/TaintConfigUtilities.h"]}
{"id": "C84", "title": "Measured timers, counters and histograms are what happened", "statement": "After any history of operations that does not abort, the recorded intervals of a timer begin and end exactly when it was started and stopped, the export contains all of them, counters hold the exact count if it fits, sums of counters are exact, and data points of histograms are the sums of what was added.", "quantifier": "all histories of operations on any number of timers, counters and histograms, all clock readings", "why_tests_cant": "the order in which timers are paused, stopped, printed and restarted is arbitrary; unit tests exercise a few orders and disable the measurement otherwise", "anchors": ["lib/Utils/PAMM.cpp", "include/phasar/Utils/PAMM.h"]}
{"id": "C85", "title": "The generalized constant analysis computes the values that executions produce", "statement": "For every execution of a program and every variable or memory location whose value stems from constants, there is a path of the exploded super graph along which the flow functions carry the fact and the edge functions compute exactly the value or unknown; flow functions generate, keep and kill exactly the facts of the instruction, parameters, returned values and string constructors; edge functions give exactly the initial value, the stored constant, the arithmetic result.", "quantifier": "all programs, all inter-procedural executions, all facts and value sets", "why_tests_cant": "the analysis has to be right for every order of stores, loads, arithmetic and calls; the unit tests compare one value at one line of small programs", "anchors": ["lib/PhasarLLVM/DataFlow/IfdsIde/Problems/IDEGeneralizedLCA/IDEGeneralizedLCA.cpp", "lib/PhasarLLVM/DataFlow/IfdsIde/Problems/IDEGeneralizedLCA/ConstantHelper.cpp", "lib/PhasarLLVM/DataFlow/IfdsIde/Problems/IDEGeneralizedLCA/MapFactsToCalleeFlowFunction.cpp", "lib/PhasarLLVM/DataFlow/IfdsIde/Problems/IDEGeneralizedLCA/MapFactsToCallerFlowFunction.cpp", "lib/PhasarLLVM/DataFlow/IfdsIde/Problems/IDEGeneralizedLCA/EdgeValue.cpp"]}
{"id": "C86", "title": "Interprocedural monotone constant propagation follows constants through calls", "statement": "The flow functions map exactly the known operands of a call to the parameters of the callee and exactly a known returned integer to the call; along every inter-procedural execution the constants they compute are the values of the variables and registers of every frame; at control-flow joins nothing is known.", "quantifier": "all programs, all executions with calls and returns, all contexts, all states of the solver", "why_tests_cant": "the facts depend on the order in which edges, joins, calls and returns are processed; the unit tests compare single values", "anchors": ["lib/PhasarLLVM/DataFlow/Mono/Problems/InterMonoFullConstantPropagation.cpp", "include/phasar/DataFlow/Mono/Solver/InterMonoSolver.h"]}
{"id": "C87", "title": "General statistics are the counts of the module", "statement": "Every entry of the JSON and text reports of the general statistics pass is the number of functions, globals, blocks or instructions of the module that its name says; the sets of allocation sites, exits and allocated types are exact; averages are quotients of the right totals; maxima are maxima; address-taken functions are those used other than by being called; the columns of the text report are aligned.", "quantifier": "all modules", "why_tests_cant": "there is no test of the pass for the derived numbers; a wrong maximum or a missed address-taken function looks plausible in every report", "anchors": ["lib/PhasarLLVM/Passes/GeneralStatisticsAnalysis.cpp", "include/phasar/PhasarLLVM/Passes/GeneralStatisticsAnalysis.h"]}
{"id": "C88", "title": "Values are mapped to their source location", "statement": "The line, column, directory, file, variable name and source line of an LLVM value are those its debug information gives, consistently with each other: line and column agree with the debug location, the file is the file of that location, the source line is that line of that file, trimmed; source code information survives JSON, and two of them are equivalent iff they agree up to the directory of the file.", "quantifier": "all values with all debug information; all file contents; all source code information", "why_tests_cant": "tests look at a handful of values of freshly compiled programs, where metadata users other than debug intrinsics do not occur and file names are absolute", "anchors": ["lib/PhasarLLVM/Utils/LLVMIRToSrc.cpp", "include/phasar/PhasarLLVM/Utils/LLVMIRToSrc.h"]}
{"id": "C89", "title": "Solver options are what was last set", "statement": "Setting or clearing a flag of an enumeration changes exactly its bits; a flag is had iff all its bits are; each option of the IFDS/IDE solver's configuration is, after any sequence of setters and setConfig calls, what the last call that concerns it made it, independently of the other options; None has no option, All every option, and by default the zero value is added and values are computed.", "quantifier": "all flag words of all widths; all sequences of calls", "why_tests_cant": "tests set single options; that two options share no bit in any sequence is not tested", "anchors": ["include/phasar/Utils/EnumFlags.h", "lib/PhasarLLVM/DataFlow/IfdsIde/IFDSIDESolverConfig.cpp", "include/phasar/DataFlow/IfdsIde/IFDSIDESolverConfig.h"]}
{"id": "C90", "title": "Initial seeds are at the start points of the entry points", "statement": "Entry points are resolved to the functions they name (all functions, if __ALL__ is the only entry point; unknown names are skipped), and the start points of these are handled in order; the initial seeds of the default, linear constant, generalized constant, instruction interaction, taint and extended taint analyses are exactly the zero value there, plus the globals with the right initial values, parameters or configured facts that each analysis asks for.", "quantifier": "all programs, entry point lists, globals and configurations", "why_tests_cant": "tests use main as the entry point; duplicates, unknown names, declarations and __ALL__ are not combined", "anchors": ["include/phasar/DataFlow/IfdsIde/EntryPointUtils.h", "include/phasar/DataFlow/IfdsIde/IDETabulationProblem.h", "lib/PhasarLLVM/DataFlow/IfdsIde/Problems/IDELinearConstantAnalysis.cpp", "lib/PhasarLLVM/DataFlow/IfdsIde/Problems/IFDSTaintAnalysis.cpp", "include/phasar/PhasarLLVM/DataFlow/IfdsIde/Problems/IDEInstInteractionAnalysis.h"]}
{"id": "C91", "title": "The ICFG gives the solver queries that fit together", "statement": "The queries the IFDS/IDE solver makes to the LLVM-based inter-procedural control-flow graph are consistent: successors and return sites are the instructions of the same function control may pass to, each function has one start point, which no instruction leads to and which isStartPoint recognizes, getCallsFromWithin lists a function's calls, and allNonCallStartNodes lists the statements that are neither calls nor start points; so the solver is sound and (for IFDS) exact on it. The same holds for the backward graph.", "quantifier": "all programs LLVM accepts, all statements, all IFDS/IDE problems on them", "why_tests_cant": "tests compare results of single analyses; values missing at the end of a function of the backward graph are never asked for", "anchors": ["lib/PhasarLLVM/ControlFlow/LLVMBasedICFG.cpp", "lib/PhasarLLVM/ControlFlow/LLVMBasedBackwardICFG.cpp", "lib/PhasarLLVM/ControlFlow/LLVMBasedCFG.cpp", "include/phasar/DataFlow/IfdsIde/Solver/IDESolver.h"]}
{"id": "C92", "title": "Library summaries hold what they are told and flow as they say", "statement": "After any sequence of insertSet and addElement calls, a function summary holds for each parameter exactly what the calls said (a set counts only if it is the first call about the parameter); looking facts up is defined for every function and parameter and does not change later answers; readFromFDFF carries over exactly the functions that the module has; the flow that the taint analysis makes from a summary generates exactly the arguments and the return value the summary names, for every call; the summary of the C library holds exactly the entries of createLibCSummary, which are consistent over the variants of a function.", "quantifier": "all sequences of calls, functions, parameters, modules, call sites and facts", "why_tests_cant": "the table has 769 rows that no test compares; lookups of parameters without entry and calls with few arguments are not tested", "anchors": ["include/phasar/PhasarLLVM/DataFlow/IfdsIde/FunctionDataFlowFacts.h", "include/phasar/PhasarLLVM/DataFlow/IfdsIde/LLVMFunctionDataFlowFacts.h", "lib/PhasarLLVM/DataFlow/IfdsIde/LLVMFunctionDataFlowFacts.cpp", "lib/PhasarLLVM/DataFlow/IfdsIde/LibCSummary.cpp", "lib/PhasarLLVM/DataFlow/IfdsIde/Problems/IFDSTaintAnalysis.cpp"]}
{"id": "C93", "title": "Helper analyses are made once, on demand, from the given options", "statement": "Whatever sequence of getters is called on HelperAnalyses: each getter returns an object made from the arguments of the constructor and from the objects the other getters return; no two objects of a kind are made; nothing is made that is not needed; a reference that was returned stays valid and is returned again; what a getter returns does not depend on the order of the calls; the destructor destroys every object once and before the objects it refers to.", "quantifier": "all configurations, all sequences of getter calls", "why_tests_cant": "tests call the getters in one or two orders; moved-from entry points or a second database would show only in other orders", "anchors": ["lib/PhasarLLVM/HelperAnalyses.cpp", "include/phasar/PhasarLLVM/HelperAnalyses.h", "include/phasar/PhasarLLVM/HelperAnalysisConfig.h"]}
{"id": "C94", "title": "Special function names are exactly those listed in the configuration", "statement": "For all contents of the configuration files and all file systems: the names loaded from a file are, for each non-empty line, the text before the first // without white space at both ends; the file of the local directory takes precedence if it exists; if the chosen file cannot be read the default name is used; the four allocation operators are always there. (That no empty name is loaded is false: a comment line gives one.)", "quantifier": "all texts (lists of characters of any length), all file systems, with or without a local directory", "why_tests_cant": "Texts are unbounded; where lines, comments and white space meet (no final newline, //// , a single /, a blank line with spaces) there are too many shapes to sample.", "anchors": ["lib/Config/Configuration.cpp:58-162", "include/phasar/Config/Configuration.h:154-159"]}
{"id": "C95", "title": "Names and flags of option enumerations are read as what they stand for", "statement": "For every string and every value of DataFlowAnalysisType, CallGraphAnalysisType, AliasAnalysisType, AnalysisStrategy and Soundness: the string is read as the value iff it is its name or its command line flag, and as None/Invalid iff it is neither of any value; what is printed for a value is read as that value. SpecialMemberFunctionType likewise, without flags. (For AliasResult this is false: every string is read as MayAlias.)", "quantifier": "all strings, all values of the enumerations", "why_tests_cant": "Strings are unbounded, so that nothing else is accepted cannot be shown by samples; the tables are made by macros, and a forgotten include compiles.", "anchors": ["lib/PhasarLLVM/Utils/DataFlowAnalysisType.cpp:16-43", "lib/ControlFlow/CallGraphAnalysisType.cpp:15-40", "lib/Pointer/AliasAnalysisType.cpp:7-32", "lib/AnalysisStrategy/Strategies.cpp:17-43", "lib/Utils/Soundness.cpp:15-41", "lib/ControlFlow/SpecialMemberFunctionType.cpp:15-35", "lib/Pointer/AliasResult.cpp:18-33", "lib/PhasarLLVM/Utils/BinaryDomain.cpp:15-24"]}
