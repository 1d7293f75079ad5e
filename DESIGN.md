# Formal model of phasar in Lean 4: design

Source: `/repo` (read as text, never built). Model and proofs: `/verif/lean/Verif/`, built with `lake build` in `/verif/lean`.

* `Verif/<Area>/…lean`: the model; every definition cites the file and lines it models and states its simplifications.
* `…Lemmas.lean`, `…Sound.lean`, …: lemmas.
* `…Props.lean` (and some files with several of them): the property theorems, named `Cxx_…`, with an `example` beside each
  that meets the hypotheses.
* `Verif/Base`: join lattices, association lists, finite sets.

Naming: a theorem `Cxx_…_partial` proves less than its property says (the manifest says what is missing). `Cxx_…_false`, and
the theorems named after the defect, prove with a concrete witness that the property, or the stronger statement one would
expect, does not hold of the code. No theorem is proved for bounded sizes only; witnesses and finite tables are evaluated by the kernel
(`decide`, `decide +kernel`).

## Trusted base

* Lean 4.33.0's kernel. The property theorems depend on at most `propext`, `Classical.choice` and `Quot.sound`, as listed
  at the end. No other axioms, no `sorry`, no `native_decide`, no `bv_decide`, no `implemented_by`. Mathlib is not imported.
* The reading of the C++ code. Nothing is extracted or run; the correspondence between definition and cited lines is by hand.
* LLVM (IR data structures, alias analysis, `isa`/`cast`, demangler, `IntEqClasses`) and the standard library are not modelled
  but represented by their documented behaviour: maps by association lists, sets by duplicate-free lists, `DenseMap`
  invalidation only where a comment says so. Where an iteration order or an allocator's choice matters, the theorems hold for
  all choices; otherwise the order is that of insertion.
* Undefined behaviour (use after free, out of bounds, signed overflow, a failing `assert`, null dereference) is a distinct
  outcome of the model (`none`), so that a theorem about a result includes that there is none.

## What is modelled and what is not

| Directory | Code | Properties |
|---|---|---|
| `IDE` | `IDESolver.h`, `IDESolverAPIMixin.h`, the IFDS instance (`IFDSTabulationProblem.h`), seeds, unbalanced returns | C01–C11 |
| `EdgeFn` | `EdgeFunction.h` (handles, reference counts, caches), `EdgeFunctionUtils.h`, `LatticeDomain.h`, `BinaryDomain.h`, `DefaultEdgeFunctionSingletonCache.h` | C12–C15, C43 |
| `Store` | `JumpFunctions.h`, `Table.h`, `FlowEdgeFunctionCache.h`, `FlowFunctions.h`, `LLVMFlowFunctions.h`, `InitialSeeds.h`, `SolverResults.h`, `LLVMSolverResults.h`, `EntryPointUtils.h`, the `initialSeeds` of six analyses | C16–C22, C50, C90 |
| `Mono` | `IntraMonoSolver.h`, `InterMonoSolver.h`, `CallStringCTX.h`, `IntraMonoUninitVariables.cpp`, `IntraMonoFullConstantPropagation.cpp`, `InterMonoTaintAnalysis.cpp`, `InterMonoFullConstantPropagation.cpp` | C23–C25, C68, C69, C83, C86 |
| `Util` | `BitVectorSet.h`, `EquivalenceClassMap.h`, `StableVector.h`, `DFAMinimizer.h`, `AdjacencyList.h`, `remove_by_index`, `StringIDLess`, `MaybeUniquePtr.h`, `PAMM.cpp`, `GeneralStatisticsAnalysis.cpp`, `LLVMIRToSrc.cpp`, `EnumFlags.h`, `IFDSIDESolverConfig.cpp`, `HelperAnalyses.cpp`, `Configuration.cpp` (special names), names of enumerations | C26–C30, C46, C48, C82, C84, C87–C89, C93, C94, C95 |
| `Alias` | `LLVMAliasSet.cpp`, `AliasSetOwner.h`, `BoxedPointer.h`, `CFLAndersAliasAnalysis.cpp`, `CFLGraph.h`, `CFLSteensAliasAnalysis.cpp`, `StratifiedSets.h` (within one function; calls without summaries, objects of one cell, offsets dropped), `LLVMAliasGraph.cpp` (without printing) | C31, C32, C76–C80 |
| `CG` | `CallGraph.h`, `CallGraphData.cpp`, `LLVMBasedCallGraphBuilder.cpp`, `CachedTypeGraph.cpp`, `LazyTypeGraph.cpp`, the resolvers with `LLVMVFTableProvider.cpp` and `LLVMVFTable.cpp` | C33, C34, C45, C56, C57 |
| `CFG` | `LLVMBasedCFG.cpp`, `LLVMBasedBackwardCFG.cpp`, special members, `GlobalCtorsDtorsModel.cpp`, `getEntryFunctionsMut`, `LLVMBasedICFGExportsImpl.cpp` (nodes, edges and labels; not the text of instructions), `LLVMBasedICFG.cpp`, `LLVMBasedBackwardICFG.cpp` (the queries of the solver) | C41, C42, C47, C63, C81, C91 |
| `Analysis` | `IDELinearConstantAnalysis.cpp`, `IFDSTaintAnalysis.cpp` with `TaintConfigUtilities.h`, `IFDSUninitializedVariables.cpp`, `IDEInstInteractionAnalysis.h`, `IDETypeStateAnalysis.h`/`.cpp` and the stdio and OpenSSL automata, `IDEGeneralizedLCA.cpp` with `EdgeValue*.cpp`, `ConstantHelper.cpp` and `MapFactsToCallee`/`CallerFlowFunction.cpp`, `IDEExtendedTaintAnalysis.cpp` with its sanitizer lattice and abstract memory locations, `IFDSConstAnalysis.cpp`, `LLVMTaintConfig.cpp` with `TaintConfigBase.cpp` and `Annotation.cpp`, `IDESecureHeapPropagation.cpp`, `FunctionDataFlowFacts.h`, `LLVMFunctionDataFlowFacts.cpp`, `LibCSummary.cpp` | C35–C40, C49, C51, C58, C64–C67, C70–C74, C85, C92 |
| `Path` | `ExplodedSuperGraph.h`, `PathSensitivityManagerMixin.h`, `PathSensitivityManagerBase.h`, `PathTracingFilter.h`, `Z3BasedPathSensitivityManager.cpp`, `pathsTo` (Z3 itself is a parameter), `LLVMPathConstraints.cpp` (without floating point; Z3's integers, bit vectors and Booleans are specified) | C52–C55, C59 |
| `DB` | `LLVMProjectIRDB.cpp` (ids of values), `getMetaDataID`, `ModulesToSlotTracker`, JSON of `LLVMAliasSet`, `Hexastore.cpp` with the SQL of `Queries.cpp` | C60–C62, C75 |
| `TH` | `DIBasedTypeHierarchy.cpp`, `LLVMTypeHierarchy.cpp`, virtual tables | C44 |

Not modelled: logging, the printed statistics of the solvers, dot and JSON output except call graphs, control-flow graphs, alias sets and type hierarchies, the command-line tools
and controllers, loading of modules, the WPDS/synchronous pushdown code, points-to
information other than alias sets, the flow functions of the analyses other
than the linear constant, the generalized constant, the taint, the uninitialized variables, the typestate, the extended taint, the const, the secure heap and the instruction interaction analysis, the two intraprocedural and the two inter-procedural monotone ones, parsing of JSON text, floating-point arithmetic (only the
comparison with an epsilon), threads (the asynchronous API is modelled as "the cancellation flag may be set at any poll"), time
(timeouts are arbitrary decisions to stop).

Places where the model deviates on purpose:

* The solver's worklist: a step may take any element, so the theorems hold for the code's LIFO order and all others.
* Edge functions are an abstract carrier with the operations the solver uses; `EdgeFn` models the built-in ones, `Analysis`
  some analyses' own.
* Statements and facts are arbitrary types with decidable equality. In C49, C51 and C58 statements are numbers; the statements a program does not
  have are functions of their own that nobody calls (`Verif/IDE/Table.lean`).
* The traversal of LLVM IR by the alias sets is a parameter. The call graph builder (C45) is proved for any resolver; the resolvers (C57) for any alias sets.

## How the main results are proved

* **Solver, Phase I (C01, C07, C10).** Specification: a pushdown small-step semantics on (stack of call sites, statement,
  fact, value), which mentions only the problem's own functions (`IDE/Spec.lean`). Invariants of the reachable solver states: every consequence
  of a jump function is a jump function or in the worklist (`Phase1Sound`), every jump function is a finite join of the functions of
  realizable paths (`Phase1Prec`). At an empty worklist they combine to exactness.
* **Solver, Phase II (C02, C03, C04).** Every run is decomposed at its pending calls; the values at start points are closed
  under the calls' jump functions. Precision: every value is a finite join of run values; uniqueness of least upper bounds
  gives order independence. Monotonicity of edge functions is required below top only.
* **Requirements at occurring facts only (`IDE/Facts`).** For a set of facts closed under the flow functions, the problem with
  all other edges replaced by the identity has the same solver states and runs. Hence C02 and C05 need good edge functions
  only at facts that occur, which the linear constant analysis needs.
* **Termination (C05).** The ranks of the finitely many possible table entries, then the worklist length, decrease lexicographically.
* **Linear constant analysis end to end (C49).** Executions are a small-step semantics of programs with `w`-bit integers
  (`LCAFlow.lean`, second half). Every tracked cell of every execution, also of the pending callers, is covered by a run of the
  exploded graph with a value that describes it (`LCASim.lean`); C02 carries this to the solver's result.
* **Uninitialized variables end to end (C58).** A new memory object holds an undefined value; a value is bad if following addresses from it ends
  at an undefined value (`UninitSem.lean`). Invariant (`UninitInv.lean`): for every bad register of the running and of every suspended
  activation the flow functions carry its fact there (for suspended ones: to the return site, unless it is a passed pointer that the callee
  still tracks). For plain programs a second invariant (`UninitPlain.lean`) shows that no state is aliased. A memory object is one cell.
* **Taint analysis end to end (C51).** Executions carry a taint bit on data and on memory objects (`TaintSem.lean`); external calls do what
  the configuration says. Invariant (`TaintInv.lean`): every tainted register or address of the running and of every suspended
  activation is a fact at the current statement, or was one at its only use, or is about to be overwritten; a suspended activation
  is related to its callee by the locations the callee can reach. C01 carries this to the solver's result.
* **Data structures (C16–C22, C26–C34, C43, C46).** Refinement to an abstract object by induction over operation histories; memory safety by
  explicit addresses and reference counts.
* **Monotone framework (C23, C24).** Invariant "every edge that is not in the worklist is satisfied"; least solution by comparison with any other.
* **Call-graph construction (C45).** Measure on (functions not yet processed, resolver state); the result is the least
  fixpoint of the resolver's answers.
* **Type graphs (C56).** One lemma about depth-first search with a visitor (what has been visited, what the visitor has done); a walk that
  uses the new edge uses it for a last time, so propagating the types of its target is enough.
* **Analyses (C35–C40).** Case analysis on edge functions, induction on sequences of joins and compositions; arithmetic by `BitVec` and `Int` lemmas.

* **Recorded supergraph and path extraction (C52, C53).** C52: the graph is related to a log of the reported edges; every operation keeps
  the relation. C53: one invariant of the recursive extraction (finished vertices are well-founded trees of ways back; vertices in
  progress are the ancestors), with a parameter for what the answer "no path" means; sound and terminating instances need nothing,
  the complete instance needs a rank.
* **Depth limit and minimisation (C59).** `reverseDAG`: one invariant with the sets of vertices, edges and roots that are done as
  parameters; at the start of a level these are given by the distance from the roots. Minimisation: the graph and its result simulate
  each other.
* **Ids and saved alias sets (C60, C61).** Invariant of the database over all insertions: the list of values is that of the module,
  the map is its inverse. The saved sets are loaded one after the other; the invariant of C31 is re-established for the values with ids.
* **Global constructors and destructors (C63).** Each stage adds one function under a new name and leaves the signatures and blocks of the
  others (`NewFn`, `Grown`); the executions of the result are computed from the blocks. A second build only appends blocks.
* **Typestate analysis (C64).** Simulation: every step of an execution is matched by a path of the exploded supergraph for each variable that
  points to an object (`Inv`: variables of the current function and of all pending calls), so that the soundness of the solver (C02) gives
  a result. `AliasOk` is checked on examples by closing a set of arrangements of variables under steps (`TSTab.lean`).
* **Abstract memory locations (C65).** The factory is a state machine with pool and cache; an invariant over all sequences of calls gives
  canonicity and the bound. The specification evaluates access paths in an arbitrary memory (`AMLSem.lean`); a location *stands for* a path
  that begins with all its offsets but the last.
* **Extended taint analysis (C66).** Each flow function and edge function is characterised exactly; an inductive relation gives the edges of
  the exploded supergraph and the values along its paths (`XFlowSem.lean`). The disagreements are small programs whose values are all
  computed: a finite set that contains the seeds and that every edge stays in.
* **Const analysis (C67).** The set `Initialized` is threaded through the list of requests; the answer to a request is characterised by the
  requests before it, so that statements about all orders follow by splitting the list. Executions are paths with a location for each write.
* **Monotone analyses (C68, C69).** The solver of C23 is instantiated. Its final facts satisfy the data-flow equations; because the
  worklist starts from empty facts and merges by intersection, what is reported has a finite derivation (C68), from which statements about
  paths follow by induction on the derivation or, without cycles, on a rank. C69 is proved by induction on the execution; an execution is
  a list of statements with the registers and the memory after it.
* **Taint configurations (C70–C72).** JSON values are a datatype with the conversions of the library used; reading is a function on it, with
  exceptions as `none`. Modules are given by what the code asks of them. The loops over descriptions, debug information and instructions are
  characterised by inductions over the lists; the specification (`Called`, `Named`, `Says`, `Local`) does not mention them.
* **Secure heap propagation (C73).** An IDE problem over the built-in edge functions. An independent semantics records what happens to the heap;
  runs of the problem and executions simulate each other. Soundness is C02; precision is C03 in the form `C03_lub_for`, which asks for exactness
  only of the edge functions that occur between each pair of facts (the join of an identity and a constant is not exact, but never occurs here).
* **Instruction interaction analysis (C74).** `Prov` says how chains of statements bring labels to values; runs of the IDE problem and chains
  correspond one to one. The join of the identity and a constant edge function drops labels, so soundness (C02 per pair of facts) needs the
  separation `Sep`; precision does not: it uses `C03_stays` for the sets "does not contain label i", "is not unknown" and "is top".
  Termination uses `C05_terminates_values`, since sets of labels have no bound on their height. `Exec` are executions that carry the labels of
  all values; they are related to chains by induction (`told_exec`).
* **Hexastore (C75).** Invariant of an index over all insertions (`Holds`): keys and ids unique, references valid, the joined rows are the
  triples put; the irregular statements for POS and OSP are shown to have the same effect. For the pattern (S, ?, O) the invariant `Lock`:
  second and third table filled in step.
* **CFL alias analysis (C76, C77).** Invariant of the work list (what is recorded is derivable; every rule with recorded premises is
  recorded or waiting), so the end result is the least relation `Der` for every order; `Der` is then shown to be the grammar `VA` of the
  specification, which is symmetric by turning words round. Attributes likewise as least solution. Termination by counting. Soundness:
  invariant `SOK` over the steps of executions, by which each pointer has a flow of graph edges from its origin or a public attribute.
* **Stratified sets and the unification-based analysis (C78, C79).** Invariant `Rep`: the sets not merged away form chains (lists), links are
  neighbours in the lists, remaps end in them. Each request is shown to replace chains as a merge of two lists does. That nothing else is merged is
  a statement about all labellings: labels that fit the requests also fit the sets. For C79 the labels are classes of the least unification `Uni`
  (leastness) and depths (congruence, hence the comparison with C76 through the least solution of attributes, and with executions through C77).
* **Alias graph (C80).** Invariant over all histories: a ghost list says which pointer, as seen in which function, each vertex is; edges
  are exactly the answers of the alias analysis and the introduced aliases. The depth-first search is shown to discover exactly the
  vertices on paths (fuel: number of vertices not yet discovered). Merging leaves the components of both graphs apart.
* **Graph export (C81).** The edges are compared with an inductive relation stated with `Step` and `First` of C42; the export is shown
  never to meet a null pointer.
* **Ownership (C82).** Invariant over all histories: the live objects are exactly the owned ones, owners are unique, live and deleted
  objects are disjoint and together all that were allocated. Operations either exchange owners, hand an object over, or delete one.
* **Inter-procedural taint (C83).** Executions carry, per frame, which values and which memory cells are tainted. Each tainted value after
  a step comes from one tainted value before it, so that one realizable path of the flow functions follows it; frames on the stack keep
  the same invariant, which gives the facts beside the call. Then the theorem about realizable paths of C24 applies.
* **Measurement (C84).** Start and stop times are read off the history; the invariant says that paused, stopped and running intervals
  together are exactly these. Counters are compared with the exact integer modulo 2³².
* **Generalized constants, flows (C85).** Executions carry for every variable and memory location its value and whether this stems from
  sources the analysis knows; the invariant gives for every such cell a realizable run to it with exactly its value or "unknown", also at the
  pending calls. The witnesses against soundness compute all runs of a small program (closed set, checked by the kernel).
* **Interprocedural constant propagation (C86).** Executions carry the facts that the flow functions compute along them and a stack of
  frames with the callers' states and facts; the invariant says that the facts of every frame hold in its state, using the one-statement
  theorem of C69. `C86_join` is an invariant over all states of the solver (values at the join, queued edges into it). The witnesses are runs
  of the solver evaluated by the kernel, next to an execution.
* **General statistics (C87).** The loops of the pass are turned into folds over the flat list of functions, blocks, instructions or globals
  (one lemma each, for any field of the statistics); the reports are then equal to lists of counts over the module. The wrong maxima are
  characterised exactly by climbing subsequences.
* **Source locations (C88).** The intrinsic that describes a value is specified by positions in the user lists; name, location, line, column
  and directory are then characterised by cases on the value. The source line is compared with the list of lines whose concatenation is the
  file. Files, metadata users and the demangler are parameters; file names are POSIX paths.
* **Solver configuration (C89).** Flags are bit vectors of any width and are compared bit by bit; the six options are shown to be disjoint, and
  a sequence of calls is followed from its last call that concerns an option.
* **Initial seeds (C90).** Every `initialSeeds` is one fold of `addSeed` over the start points; it is flattened into a list of calls, and the
  seeds are that list if calls for the same statement and fact agree.
* **ICFG queries (C91).** The graph the solver model takes as input is built from the model of the intra-procedural graph (C42, C47); statements
  are the instructions of the module, so that the assumptions of C01–C11 on the graph become theorems. The call graph is given (C33, C45, C56).
  That nothing is stored outside calls, start points, seeds and `allNonCallStartNodes` is an invariant of Phase II of the solver. Not modelled:
  `isIndirectFunctionCall`, `isVirtualFunctionCall`, the printing of the call graph, instructions that the `IRDB` does not know.
* **Library summaries (C92).** `LibSummary` models both classes with one generic map; sequences of calls are compared with what they say about a
  parameter. `LibCTable` is the list of the 769 calls of `createLibCSummary`, extracted from the source by a script (part of the trusted base:
  that the list is that of the source). Statements about this table are about all of its rows; the kernel evaluates them. Not modelled:
  `hash`/order of `StringMap`, the other cases of the summary flow function of the taint analysis (C51).
* **Helper analyses (C93).** State: the five members and the objects made so far; an invariant ties each member to an object and an object to
  the members it was made from. What the objects do is not modelled here. The order in which C++ evaluates the arguments of `LLVMBasedICFG` is
  fixed to left to right; it decides only which address an object gets.
* **Special function names (C94).** LLVM's `SplitString`, `find`, `slice` and `trim` are modelled as the functions they are documented to be;
  the specification says by concatenation what a line, the text before a comment and a trimmed text are, and both are proved to agree.
  Reading a file gives its text or an error; errors are not told apart (only logging depends on which), and the local directory is an input.
* **Names of enumerations (C95).** One model of LLVM's `StringSwitch` and of the two-step reading (names, then flags), used with the tables of
  the `.def` files; the specification gives name and flag by cases on the value. A lemma for any table without repeated strings is applied to
  the five tables, whose finite side conditions are decided. C95 was added last and has not been mutation-tested.

## Findings

Behaviour of the code that contradicts its documentation, a property, or the C++ rules. Each has a theorem unless marked "(read)".

Solver
1. Cancelling an interruptible solve on its last step (or last batch, or before the start without seeds) and then continuing pops an empty worklist (C06).
2. `continueUntil` with an interval in which no step fits never makes progress (C06).
3. With `followReturnsPastSeeds`, whether a return is followed depends on the processing order, and values are lost (C09).
4. Phase II enters callees although they have a special summary (C10).
5. Seeds inside function bodies: values lost, spurious facts (C11).
6. `JumpFunctions::removeFunction` erases a whole row of one view and returns the wrong answer (C16).
7. Caches of call-to-return functions ignore the set of callees; keys of edge functions collide beyond 2^32 values (C18). Summary flow functions are not cached.
8. `resultAt` of an absent fact is the default value; for `BinaryDomain` this is `BOTTOM`. `ifdsResultsAt` ignores the value. `resultsAtInLLVMSSA` and `resultAtInLLVMSSA` disagree (C22).

Edge functions
9. Composition with `AllTop` and after `AllBottom` is not composition (C12).
10. A moved `DefaultEdgeFunctionSingletonCache` leaves dangling entries (C43). `EdgeFunction::operator<` is not a strict weak order (read).

Flow functions
11. `transferFlow` with equal parameters contradicts its own equations (C19).
12. `mapFactsToCaller` ignores `PropagateZeroToCaller = false` when globals are propagated (C50); it reads `Source` after `std::move` (read).

Monotone framework
13. Inter-procedural solver: returns not propagated, contexts overwrite each other (no termination), `break` skips callees, recursion treated as call-to-return, facts leak between return sites (C24).
14. Intra-procedural solver: seeds in loops make it run forever; joins must be branch targets; solving twice changes the result (C23).
15. Call strings with `K = 0` grow without bound; returning past the limit forgets (C25). `operator<` names a missing member (read).

Utilities
16. `BitVectorSet`: equal empty sets have different hashes; iteration overruns when another set grows (C26).
17. `EquivalenceClassMap`: inserting a key again with another value puts it into two classes (C27).
18. `StableVector::shrink_to_fit` on an empty vector: use after free (C28).
19. `DFAMinimizer`: the result is not the minimal automaton (C29). `AdjacencyList::pop` leaves dangling edges (C30).
20. `remove_by_index` for non-random-access iterators removes the wrong elements; the other version is undefined if the last index and the one behind it are given (C46).
21. `StringIDLess` compares the wrong pointer, so that all names are equivalent; numbers above `LONG_MAX` are equivalent (C48).

Alias sets, call graph, control flow
22. `LLVMAliasSet::mergeWith` loses symmetry and transitivity (C32).
23. Call graphs: unresolvable ids add an edge from the null call site; the empty graph cannot be read back; functions of equal names are merged (C34); vertex handles dangle beyond the reservation (C33).
24. `DTAResolver` does not report that its answers changed, so that the construction can end too early (C45). `buildLLVMBasedCallGraph` computes points-to information and does not pass it to the OTF resolver (read).
25. `getSpecialMemberFunctionType` loops forever on `C1`, throws on long numbers, misclassifies methods and long class names (C41).
26. `getPredsOf` is not the inverse of `getSuccsOf` at static-initialisation branches; `isStartPoint`, `isExitInst`, `isBranchTarget` disagree with the listings (C42). Backward CFG: edges swapped, null dereference at return nodes, switches (C47).

Analyses
27. Linear constants: results are not reduced to the width, unsigned operations computed as signed, `INT64_MIN % -1` is undefined (C35); edge functions not distributive, not monotone at top; `==` ignores `CurrNode`, the hash does not (C36). `cast<ReturnInst>` in `getReturnEdgeFunction` fails for other exits (read).
28. Linear constants end to end: untracked values are ignored at merges, the overflow bit gets the sum, saturating intrinsics are folded as plain ones, defined and external callees mixed, external functions assumed not to write (C49).
29. Instruction interactions: combining with the identity under-approximates (C37).
30. Typestates: only the first consuming callee counts, OpenSSL automata not monotone, top treated as uninitialised, the join of `JoinLatticeTraits` not idempotent (C38).
31. Generalised constants: subtraction computes `Lhs - Lhs`; division by zero; truncation asserts; widening keeps the width; the configured bound is ignored; the bound can be exceeded (C39).
32. Extended taint: the join is neither commutative nor associative, two values can oscillate, equality ignores the load (C40).
33. Taint analysis: arithmetic, phi and select drop taint; a pointer argument loses its taint when the parameter has one use (the fact is killed there and on the call-to-return edge); a call with a struct-return attribute gets a summary, so its callee is never analysed; library summaries taint no aliases of their destination and are hidden when the function is configured; pointers loaded later in the same block are skipped; a sanitizer that is only declared has no effect (C51). `Kill` is ignored when something is generated; a store to an object kills its other fields (read).
34. Type hierarchies: no bases with opaque pointers, `struct.`/`class.` name clash, null check on the wrong type; serialisation by plain name and null entries doubled (C44). `Seen` is never set and anonymous C structs violate an assertion (read).

Path sensitivity
35. Recorded exploded supergraph: the node of a seed's edge has no predecessor, and the next edge that reaches it overwrites it, so the seed is lost; nodes shared inside a block let later alternatives appear at earlier statements, create cycles and hide the second of two calls; `getNumNeighbors` returns a `bool` (C52). `CurrNode` is moved from and read afterwards in `saveEdges` (read).
36. Path extraction: endless loop on a recorded graph whose seed was lost; a node visited while all nodes it leads to are being visited is cached as leading nowhere, which loses acyclic paths and, as the cache is shared, all paths of another fact; what is left of it looks like a path of the queried statement alone (C53).
37. Reporting of paths: the last statement is checked once more against itself, so a query at a `ret` or `resume` of a called function reports no path that goes through the call; the threshold is not checked for edges to the leaf and counts duplicates; a return past an invoke of a defined function is taken for a return to the call in front (C54). `NumAtomsStack` is never filled, so the atoms are never removed again; they are only used to decide whether the solver is called (read).
38. Constraints of branches: the false edge of a branch on a truncated value gets the constraint of the true edge; integers are unbounded, so overflow, division and remainder of negative numbers, unsigned comparisons and zero extension are translated wrongly; all loads of a variable, all calls of a function and all unnamed variables share one constant, so paths that are taken are refuted; `*p == *q` becomes `p == q`; branches with equal targets; `&&` of comparisons, `!f()` and `*p > 0` end the program; the search behind a load does not end on phis of a loop; blocks that begin with a debug instruction have no constraint when debug instructions are ignored (C55).
39. Type graphs: `addLink(A, B)` with a literal struct type `B` looks up `B` under the empty name when it propagates, so the propagation starts at the first vertex of the graph (or an LLVM assertion fails), and the empty name stands for that vertex from then on; identified types without a name share one vertex; `aggregateTypes` (used in tests only) misses types on cycles (C56).
40. Resolvers, callees that are missed (C57): the arrays of a virtual table are concatenated, so calls through a second base class look up the wrong entry (and return a wrong function); offsets of virtual bases in front of the table shift all entries; covariant return types are dropped because return types have to be equal; class templates have no table because the struct type lacks the template arguments; entries without a cast (opaque pointers) are ignored.
41. Resolvers, function pointers in C structs (C57): `hasVFTable` is true of every named struct, so `s->fn(s)` is taken for a virtual call and has no callees, with every resolver.
42. Resolvers, RTA and DTA (C57): RTA knows no objects in global variables, arrays or members, and dereferences a null pointer if a new object is passed to a function without formals; the DTA heuristic for constructors tests `hasVFTable` the wrong way round, so every cast of `this` in a constructor is ignored, and it recognises constructors by `C1E`/`C2E` anywhere in the name.
43. Uninitialized variables, uses that are missed (C58): local structures and vectors are not tracked; a variable whose address is passed to a function without a body counts as initialized, which includes `llvm.lifetime.start`; the same for functions called through pointers (`getRetFlowFunction` asks `getCalledFunction`, not the callee it is given), by `callbr`, or for additional arguments of a variadic function; `undef` as argument or returned value is ignored; what a function stores in a global is forgotten at its return.
44. Uninitialized variables, the report (C58): of several undefined operands of a statement those after an `undef` literal are not reported; the address of an uninitialized variable counts as a use; `aggregateResults` drops uses without a source line (the report can say "Total uses: 0" although there are uses), gives one entry, with the name of one function, for uses in the same line of different functions, and several entries for one line, because the map is ordered by address.
45. Path queries, depth limit (C59): `DAGDepthThreshold` bounds how far away from the queried statement a vertex is on the shortest way, not the length of the paths; with limit 2 a path of 4 vertices is returned.
46. Metadata ids (C60): `fromMetaDataId` (`LLVMProjectIRDB.cpp:263-302`) cuts at the first dot. The arguments of functions with a dot in their names (`f.1` after linking, clones, intrinsics) are not found; the id `f.1.0` of the argument of `f.1` yields argument 1 of `f`. Characters after the number are ignored (`12abc` is 12). Without preprocessing no value has an id.
47. Alias sets as JSON (C61, `LLVMAliasSet.cpp:98-151, 699-723`): functions have no id and are dropped, so aliases of function pointers are lost on loading; as the analysed functions are kept, they are not computed again. With dotted names (46) the loaded sets need not be a partition. With nothing computed, the fields are `null`, and the constructor's assertions fail.
48. Slot trackers (C62): `updateMSTForModule` (`LLVMShorthands.cpp:531-541`) destroys the wrapper with the reference count and constructs a `ModuleSlotTracker` in its storage. The count read by the next construction or destruction of a database - at the latest the destructor of every database for which `GlobalCtorsDtorsModel` was built - is indeterminate.
49. Global model, entry points (C63, `GlobalCtorsDtorsModel.cpp:267-302`): a `main` with one or three parameters (`envp`) and other entry points with parameters are never called; the destructors are called all the same.
50. Global model, exit (C63, `GlobalCtorsDtorsModel.cpp:63-187`): the registered destructors have priority 0 in a map ordered by descending priority and hence run after `llvm.global_dtors`; the runtime runs them first. The argument of a registered destructor loses any constant expression around it (an element's address becomes that of the variable); a local value of another function is used as operand, which is not valid IR. Their order is that of LLVM's use list.
51. Global model, names and second build (C63): `isPhasarGenerated` looks for `__psrGlobalDtorsCaller`, but that function is called `__psrGlobalDtorsCaller.<module>`. Building the model a second time for a module fails at the assertion in `insertFunction`; without assertions the new blocks are unreachable and the first entry points stay in effect.
52. Typestate, wrong results (C64, `IDETypeStateAnalysis.h:431-464`): a consuming function changes the state of everything that may alias its argument, without keeping the old state; with correct but inexact alias sets an open file is reported as closed. What is known about global variables is lost at every call of a function with a body, and so are temporaries that alias an argument (`.cpp:113-220`).
53. Typestate, errors that are not reported (C64): where paths join with different states, the state becomes bottom and stays it, and bottom is not reported (`if (c) fclose(f); fclose(f);`). Only the aliases of the first argument of matching type are killed beside a call (`.cpp:199-212`), so every further argument ends up as bottom. With opaque pointers parameters and call results never have a matching type, while every `alloca` and load of any pointer does.
54. Typestate, caches (C64, `.cpp:228-287`): `getWMAliasSet` stores the alias set of the queried value for all its members. If aliasing is not transitive, the answer depends on the order of the queries.
55. Typestate (C64, `.cpp:124-147`): for a variadic function without a `va_list` the uninitialized `AllocVarArg` is compared. A call without known callees kills the zero value, which only `autoAddZero` restores.
56. Extended taint analysis, pointers to fields (C65): `operator-` (`AbstractMemoryLocation.cpp:73-79`) does not subtract the last offset of the value that is stored, and `withTransferToImpl` (`AbstractMemoryLocationFactory.cpp:417-419`) clears the last offset where it had to clear the first. With `s.f` tainted at a nonzero offset, the taint is lost by `q = &s.f` and by `g(&s.f)`. A function that taints `p->f` does not taint it for its caller, because only facts whose first offset is that of the parameter are mapped back (`IDEExtendedTaintAnalysis.cpp:443-448`).
57. Extended taint analysis, unknown indices (C65): `createImpl` makes an over-approximation of `s[i]` that keeps the last offset (of `s[0]`), while `withOffsetImpl` drops it. Reading another element is not seen as tainted at a sink, and a write to `s[i]` sanitizes `s[0]`. If a buffer is tainted as a whole, a copy of an element other than the first is not.
58. Extended taint analysis, lifetimes (C65, `AbstractMemoryLocation.cpp:165-176`): the profile of a location has only whether its lifetime is zero, so the first lifetime asked for is the one all later calls get; results depend on the order in which the solver asks. `withTransferFromImpl` returns an exact location for an over-approximation.
59. Allocator of locations (C65, `AbstractMemoryLocationFactory.cpp:100-128`): a bound above 6141 lets a location be written past its block. `InitialCapacity` is never set, and the newest block is taken for the initial one on destruction (only sizes for the address sanitizer).
60. Extended taint analysis, external functions (C66, `IDEExtendedTaintAnalysis.cpp:675-694`): past a call the edge function makes the call the sanitizer of every fact equivalent to a pointer argument, unless all callees are intrinsics. For callees with bodies the fact comes back through the callee; for declarations nothing does. `source(p); strlen(p); sink(p)` is dropped from the leaks.
61. Extended taint analysis, post-processing (C66, `IDEExtendedTaintAnalysis.cpp:846-880`): a leak is recorded for any fact equivalent to the leaked value, but only the result for the fact made from the value itself decides whether it is dropped. `source(p); *p = tainted; sink(p)`: the store sanitizes `p`, the stored taint sits one indirection deeper, and the leak is dropped.
62. Extended taint analysis, arithmetic (C66, `IDEExtendedTaintAnalysis.cpp:82-84`): the comment says that all other instructions are handled when facts are created; that covers loads, casts and address computations only. `sink(tainted + 1)` has no leak, nor have comparisons, selects, extracted values and results of external functions.
63. Extended taint analysis, sanitizers (C66, `IDEExtendedTaintAnalysis.cpp:544-576, 713-735`): the sanitizer configuration of a call is only used for calls with a summary, and a function that only sanitizes has none. A sanitizer with a body is analysed like any other function. At instructions other than stores the sanitizer configuration is never asked for (`:597-608`).
64. Extended taint analysis, report (C66, `IDEExtendedTaintAnalysis.cpp:226-234, 748-763`): leaks at stores are passed to the printer when they are found and again from the leaks that remain; the first also prints leaks that are dropped, and others twice.
65. Extended taint analysis, calls without known callees (C66, `IDEExtendedTaintAnalysis.cpp:533-541`, `IDEExtendedTaintAnalysis.h:199`): zero is killed past a call none of whose callees is a declaration, and the solver does not add it. After an unresolved indirect call no source is seen.
66. Extended taint analysis, load of a value (C66, `IDEExtendedTaintAnalysis.cpp:808-821`): the recursion through first operands does not end for a phi in a loop whose first incoming value depends on it, so a loop counter at a sink overflows the stack. A return of a callee through another exit than `ret` fails the cast at `:422`.
67. Const analysis, repetition (C67, `IFDSConstAnalysis.cpp:72-85`): whether a location has been written before is decided once per statement, when the flow function is made. A statement that writes a location in a loop, or in a function called twice, counts as its initialization for ever.
68. Const analysis, order (C67, `IFDSConstAnalysis.cpp:72-85, 240-246`): asking for a flow function changes the analysis. Of two writes in different branches the one the solver asks for second makes the location mutable, although each execution writes it once; the results at the ends of the branches depend on the order. An object given to the solver a second time finds every written location mutable.
69. Const analysis, report (C67, `IFDSConstAnalysis.h:209`, `IFDSConstAnalysis.cpp:251-290`): the set of locations the report starts from is never filled; it prints "No immutable memory locations found!" for every program.
70. Intraprocedural uninitialized variables (C68, `IntraMonoUninitVariables.cpp:35-75`): facts start empty and are intersected at joins, so that nothing is known in or after a loop; a variable uninitialized on one of two paths is not reported; storing anything but an integer constant does not initialize; storing `undef` does.
71. Intraprocedural constant propagation, stores (C69, `IntraMonoFullConstantPropagation.cpp`): a store of an unknown value keeps the old constant; stores through other pointers and writes by calls are ignored; a variable that is `Bottom` once stays so; everything is forgotten at loops.
72. Intraprocedural constant propagation, arithmetic (C69): the bit width is ignored, unsigned division and remainder are signed; signed overflow of `int64_t` is undefined behaviour of the analysis itself (the model wraps).
73. Interprocedural constant propagation (`InterMonoFullConstantPropagation.cpp`, C86): `merge` always returns the empty map, so nothing is known behind a join (C86_join); formal parameters are indexed by the number of the operand, beyond the end if there are more operands than parameters (C86_call_undefined); the null return value of `ret void` is dereferenced, so calls of void functions crash the analysis (C86_return_undefined); the constructor moves the entry points and then uses them for the second base class, which is not asked for them (read).
74. Taint configurations, reading (C70, `TaintConfigSchema.json`, `TaintConfigBase.cpp`): `properties` and `required` of the schema stand at `type: array`, so nothing is required of functions and variables; indices and lines are cast (−1 becomes 4294967295), Booleans are indices, a number can stand for a list.
75. Taint configurations, functions (C70, `LLVMTaintConfig.cpp:30-122`): of several overloads only the first is marked, the others cause a warning; a definition in the debug information without a function in the module is dereferenced; every user of a function, not only calls of it, gets the category of the return value.
76. Taint configurations, variables (C70, `LLVMTaintConfig.cpp:124-182`): a member marks the members of all identified structs whose name begins with its name, with the categories of all variables in the configuration; only the first variable whose scope is a struct counts; the scope of local variables is ignored.
77. Annotations (C71, `LLVMTaintConfig.cpp:184-298`, `Annotation.cpp`): `psr.` is cut off without being compared; a local variable to which an argument is assigned anywhere is taken for that argument; annotated global variables dereference a null pointer.
78. Queries (C72): `generatesValuesAt` is true of calls with source arguments that generate nothing; `collectSanitizedFacts` ignores the sanitizer call-back; `getOperand(i)` on calls with fewer arguments than parameters yields the callee or is out of range. Read: `operator<<` prints "empty" for a configuration that has only a sanitizer call-back.
79. Secure heap propagation (C73, `IDESecureHeapPropagation.cpp:83-157`): a second initialisation after a shutdown is not recognised (the fact keeps the bottom value); INITIALIZED means "on no execution shut down after initialisation, on some initialised", not "initialised"; shutdown through a function pointer is not seen although the call graph resolves it; facts are carried over calls of functions that never return. Read: `SHPEdgeFn` and `SHPEdgeFunctionComposer` are unused.
80. Instruction interaction analysis (C74, `IDEInstInteractionAnalysis.h`): labels are lost. A store deletes the labels of everything it may write (`:365`, marked in the code). Instructions with constant operands only, parameters given only constants, and variables in which a function or constant expression is stored are not reported. If one call has callees with and without body, the label of the call does not come to the result; if no callee is known, the result is not reported at all.
81. Instruction interaction analysis, `getCallEdgeFunction` (`:835-843`): collects the *arguments* with the `sret` attribute but compares them with the *parameter*; the documented edge is not used and the parameter is reported as unknown (C74_sret_false).
82. Instruction interaction analysis: the results of library functions are reported as unknown instead of with the label of the call (C74_opaque_false); where such a value meets a constant, the labels of the constant alone are reported (C74_meet_false, a consequence of C37_combine_false).
83. Hexastore, `SearchSXO` (C75, `Queries.cpp:113`): joins on `sop_object.id=sop_predicate.id` instead of `sop_predicate.oid`. Of several predicates between a subject and an object only the first is found; if SQLite does not use up ids for ignored insertions, triples that were never put are returned.
84. Hexastore, `OPSInsert` (C75, `Queries.cpp:87-90`): looks up the predicate by name alone and the object in a table of another index by its row id; the index lacks triples. No query uses it.
85. Hexastore (read): names are put between double quotes without escaping; a name that is also a column (`name`, `id`, `sid`, `oid`, `pid`) is read as that column in the conditions. `Err` is uninitialised when `sqlite3_open` fails.
86. CFL alias analysis (C77, `CFLGraph.h:459-477`): the result of a call that only reads memory counts as unknown, but its arguments keep no attribute; a local object and the pointer to it returned by such a call (`strchr`) are `NoAlias`.
87. CFL alias analysis (C77): what is loaded from the result of a `noalias` call has no attribute although it may point to a global (`CFLGraph.h:470-477`). `ptrtoint` marks the pointer as escaped, not the level below as unknown (`:274-277`), so what other code stores through it is missed.
88. CFL alias analysis (C77): `cmpxchg` and `atomicrmw` results have no load edge (`CFLGraph.h:308-326`); the value read is unrelated to the memory. The `extractvalue` that gets it finds a node without edges.
89. CFL alias analysis (C77): for a constant expression `inttoptr` the attribute `unknown` is lost, as `addNode` adds the node before with no attribute from the expression (`CFLGraph.h:212-217, 537-540`).
90. CFL alias analysis (C76): "ReachSet is symmetric" (`CFLAndersAliasAnalysis.cpp:446`) is true of the pairs, not of the states read there (C76_states_symm_false).
91. Stratified sets (C78, `StratifiedSets.h:505-554`): when a set is merged with the set below it, the merged set has no link below to itself. What is later put below it becomes a separate set: values put below members of one set are no longer together (C78_congr_false), and the result depends on the order of requests (C78_order_false).
92. Unification-based CFL alias analysis (C79): because of 91 it is unsound for cyclic structures: for two cells that point to each other (`*q = p; r = q; *p = r; s = p; t = *s`) it answers `NoAlias` for `t` and `r`, which hold the same pointer (C79_cycle_false). Whether it does depends on the order of a hash table of pointers, so it may differ from run to run (C79_order_false).
93. Alias graph (C80, `LLVMAliasGraph.cpp:372-373`): `getAliasSet` passes a `const llvm::Function *` to `computeAliasGraph`; overload resolution takes the function for values, which asks for the function of the function, gets null and dereferences it. Alias sets and `alias` fail for every value (C80_alias_false).
94. Alias graph (C80): the function of a global or constant is null, so that `getReachableAllocationSites` and `introduceAlias` dereference null for them (`:141-153`, C80_global_false); instructions that are no pointers get the vertex 0 by `operator[]` and with it the aliases of an unrelated pointer (`:274, :310-311`, C80_default_false).
95. Alias graph (C80, `:44-48, :92, :271`): `AllocationSiteDFSVisitor` keeps a reference to a temporary call stack; with an alias introduced together with an instruction it is read after its end, at an index out of range (C80_label_false; `matchesStack` is evaluated before `CallStack.empty()`, `:60`).
96. Alias graph (C80, `:216-246`): each function analysed compares all pointers in the graph, also those of other functions, with its own alias analysis; answers then depend on what was asked before (C80_order_false). `:212` gives a global a new vertex and forgets the old one. `mergeWith` loses the aliases of the other graph for functions both graphs have (C80_merge_false).
97. Graph export (C81, `LLVMBasedICFGExportsImpl.cpp:110-122`): for every instruction with two successors that is no `invoke`, the dot export writes a branch. A `callbr` with two successors loses the edges to and from its callees (C81_callbr_false), and a `switch` with one case is written as a branch whose default is the true way (C81_switch_false). Return edges to the unwind destination also start at normal returns, and vice versa (C81_unwind_false, noted as TODO in the code).
98. Graph export (C81, `:189-202, :237-251`): the JSON export lets call edges skip debug instructions also if they are kept, and, with source code information, all instructions without it; the start of the callee then has no incoming edge although it and its outgoing edges are in the graph (C81_json_false, C81_sci_false).
99. `MaybeUniquePtr` (C82): move assignment is a swap (`MaybeUniquePtr.h:94-97`), so that the old object of the target lives as long as the pointer moved from, which is not empty (C82_assign_false); `release()` leaves the pointer in place (`:142-145`, C82_release_false); the member templates `reset(MaybeUniquePtr<TT> &&)` (`:154-157`) cannot be instantiated for other types, as there is no such conversion.
100. Inter-procedural monotone taint analysis (C83, `InterMonoTaintAnalysis.cpp`): results of binary operators, `phi`, `select` and all other computations are never tainted (`:56-84`, C83_op_false); storing an untainted value through a tainted pointer makes the pointer itself untainted (`:64-66`, C83_pointer_false); a pointer passed to a function that is only declared, or beyond the parameters of a variadic one, loses its taint because only the return flow of a body brings it back (`:156-163`, C83_declaration_false, C83_vararg_false); aliases and globals are not followed (C83_alias_false, C83_global_false).
101. The same (`:168-182`): the seeds ignore the entry points and the configured seeds, and dereference a null pointer if there is no `main` (C83_main_false); a call with fewer operands than parameters is read out of bounds (`:92-93`, C83_arity).
102. `PAMM` (C84, `PAMM.cpp:328-345`): `printTimers` and `exportMeasuredData` stop all timers, also repeating ones; of a timer that was paused before and then stopped, the export has only the paused intervals, because the entry is overwritten, and starting it again is a fatal error (C84_export_false); `resetTimer` of a paused timer fails its assertion and keeps the intervals; with assertions disabled, stopping a stopped timer dereferences the end iterator (`:83-86`).
103. `IDEGeneralizedLCA` (C85): the call-to-return flow function is the identity and the called function gets and returns no facts of global variables, so a global variable that a called function changes keeps its old constant (`IDEGeneralizedLCA.cpp:154-211`, C85_global_false). The linear constant analysis kills them.
104. `IDEGeneralizedLCA` (C85): values from unknown sources have no facts, and a missing fact is the neutral element of joins: after `if (c) x = 5; else x = unknown();` the analysis reports that `x` is 5 (C85_merge_false).
105. `IDEGeneralizedLCA` (C85): results of arithmetic and casts are not killed before they are computed again, and the edge from the old result to itself is the arithmetic operation: in a loop, `a = v + 1` with constant `v` is reported as unknown (`:330-355`, C85_loop_false).
106. `MapFactsToCalleeFlowFunction.cpp:63, 77` (C85): for external variadic functions, e.g. `printf("%d", 5)`, `Formals[Idx]` is read beyond the end (C85_printf_false, exact condition C85_callee_undefined). `MapFactsToCallerFlowFunction.cpp:24`: a function left by `resume` fails `cast<ReturnInst>` (C85_resume_false).
107. `IDEGeneralizedLCA.cpp:270-289`, `EdgeValue.cpp:74-84` (C85): global data arrays other than strings (`int a[] = {1, 2}`) are seeds, and their edge function calls `getAsCString`, which asserts (C85_array_false).
108. `ConstantHelper.cpp:25-40`, `EdgeValue.cpp:70-84` (C85): a pointer into the middle of a constant string has the whole string as value, mutable arrays have their initial string, and the null pointer is the empty string (C85_offset_false); an element address inherits the value of the base address (`p[1]` is reported to be what was stored to `p[0]`, C85_element_false).
109. Interprocedural constant propagation (C86): a function that returns 5 or 6 is reported to return 5, because the facts of the second return do not overwrite those of the first (`InterMonoSolver.h:320-342`, C86_two_returns_false).
110. Interprocedural constant propagation (C86): a variable that the callee changes through a pointer keeps its old constant in the caller: the call-to-return flow is the identity and `returnFlow` maps no parameters back (C86_pointer_false).
111. Interprocedural constant propagation (C86): the result of a call is lost behind the call when the call-to-return edge is processed again after the return, which overwrites the facts at the return site (C86_returned_false).
112. General statistics (C87, `GeneralStatisticsAnalysis.cpp:96-101`, `:113-118`): the maxima of predecessors, successors, operands and uses are incremented instead of set, so that too small numbers are reported (C87_max_false; exactly what is reported: C87_max).
113. General statistics (C87, `GeneralStatisticsAnalysis.cpp:38`): a use of a function is told from the called operand by its value, so a function passed to itself is not counted as address-taken (C87_address_taken_false).
114. General statistics (C87, `GeneralStatisticsAnalysis.cpp:59`): `getArg(0)` of a called function without parameters (all arguments variadic) is undefined (C87_undefined).
115. General statistics (C87): the statistics are a member that is not reset, so a second run adds to the first (C87_rerun); "Alloca Instructions" counts heap allocating calls, too (C87_report); averages of a module without blocks are 0/0.
116. Source locations (C88, `LLVMIRToSrc.cpp:182-190`): an instruction used by metadata that is no debug intrinsic (or a `dbg.addr`) has a line but no file, so that the source line is taken from the module's file instead (C88_file_false).
117. Source locations (C88, `LLVMIRToSrc.cpp:310`, `:320`): `to_json` writes `sourceCodeFunctionName`, `from_json` reads `sourceCode`; the function name is lost, which `operator==` does not see and `equivalentWith` does (C88_json_false, C88_json_eq).
118. Source locations (C88, `LLVMIRToSrc.cpp:295-304`): `equivalentWith` is not symmetric, holds of `x.c` and `yx.c`, and skips the first character of a file name without a separator, so that `main.c` is equivalent to `rain.c` (C88_equivalent_false).
119. Solver configuration (C89, `IFDSIDESolverConfig.cpp:62-66`): `std::boolalpha` comes behind the first option, which is written as a digit, and stays set on the stream (C89_print_false); the operator that the header declares, for `llvm::raw_ostream`, has no definition.
120. Initial seeds (C90, `IFDSTaintAnalysis.cpp:491`): with the entry point `__ALL__` the arguments of `main` are not tainted, although asked for (C90_taint_all_false).
121. Initial seeds (C90, `EntryPointUtils.h:44`): `__ALL__` beside other entry points is silently taken for the name of a function (C90_all_false).
122. Initial seeds (C90, `IDELinearConstantAnalysis.cpp:419`): `getSExtValue` of a global wider than 64 bits may fail an assertion (C90_lca_undefined); and with several entry points, globals have their initial values at the start of each of them, also of those that run after others (C90_lca).
123. Backward ICFG (C91, `LLVMBasedBackwardICFG.cpp:43-46`): `allNonCallStartNodes` is that of the forward graph, so statements that are start points forward are left out. An IFDS or IDE problem on the backward graph gets no result at the first instruction of any function (if it is no call, seed or exit), nor at a `BackwardRet`, although facts reach them (C91_backward_none, C91_backward_false).
124. Backward ICFG (C91, `LLVMBasedBackwardCFG.cpp:94-97, :111-113`): `isStartPoint` accepts every `BackwardRet`, which is the end of the function, and does not accept a `resume`, which `getStartPointsOf` returns (C91_backward_queries, C91_backward_wfv_false).
125. ICFG (C91, `LLVMBasedCFG.cpp:167-175`): if a function begins with a debug instruction, `isStartPoint` accepts it although it is ignored everywhere else; harmless for the solver, which never gets there (C91_wfv_all, C91_visible).
126. Summaries (C92, `FunctionDataFlowFacts.h:46-50`): `getDataFlowFacts` dereferences the end iterator for a known function and a parameter without entry (C92_get, C92_get_false).
127. libc summary (C92, `LibCSummary.cpp:1507-1509`): the entries of `snprintf` have source and target exchanged; format and arguments do not flow to the buffer (C92_libc_snprintf_false), and a call with three arguments and a tainted size makes `getArgOperand(3)` fail. The same happens for `fscanf(f, " ")` and `sscanf(s, "x")` without further arguments (C92_libc_flow_false).
128. libc summary (C92): 15 entries let a parameter flow to itself and say nothing, e.g. `pread`, `realpath` (C92_libc_noop); 11 mathematical functions have variants for `float` or `long double` that are missing or differ, mostly misspelt or doubled (`lgmmaf_r`, `llrinf`, `powf` for `pow10f`; likewise `readdrir_r`, `getutid` for `getutid_r`, `getutmp` for `getutmpx`) (C92_libc_variants_false).
129. Taint analysis (C92, `IFDSTaintAnalysis.cpp:415-416`): arguments in the variable part of a call are not looked at, so entries such as (`fprintf`, 2), (`asprintf`, 2..5), (`swprintf`, 3) have no effect (C92_flow_variadic).
130. libc summary and taint analysis (C92): the entries (1 to 0) and (0 to result) of `strcpy`, `strcat`, `memmove` and 14 others are not followed transitively, so `p = strcpy(dst, src)` with tainted `src` taints `dst` but not `p`, which is the same pointer (C92_libc_copy_false); `mempcpy` has an entry (1 to result). `strchr`, `strcasestr`, `atoi`, `atol`, `atoll`, `atof`, `wcschrnul`, `sprintf` have no entry (C92_libc_missing_false).
131. Helper analyses (C93, `HelperAnalyses.cpp:104-112`): `getCFG` returns the ICFG if that was made before, else an object of its own; so whether the two are the same object depends on the order of the calls (C93_cfg, C93_cfg_false). Harmless as long as both answer alike.
132. Special names (C94, `Configuration.cpp:139-146`): a line that holds only a comment, or only blanks, inserts the empty name, so comments in a list are not without effect (C94_empty says exactly when; C94_empty_false is a witness). The lists shipped with PhASAR have comments only behind names. Also, by C94_names, a list in the local directory that exists but cannot be read hides the global one.
133. Shipped list (C94, `config/glibc_function_list_v1-04.05.17.conf:1-3`): the lines for `pthread_getspecific`, `sbrk` and `sem_open` begin with a `*`, which nothing strips, and the functions are listed nowhere else; so these three are not special (C94_star_false). In the list of LLVM intrinsics, `llvm.ptr.annotation.p<address space>i8` and four like it are patterns, not names, and match nothing either.
134. `toAliasResult` (C95, `AliasResult.cpp:29-33`): the macro for the cases is defined but `AliasResult.def` is not included after it, so the switch has no case and every string, also "NoAlias" and "MustAlias", is read as `MayAlias` (C95_alias, C95_alias_false). Sound, but not what `toString` prints. The function is not called in `lib`, `include` or `tools`.

## Mutation tests

`seeded/LOG.jsonl` has one line per seeded bug: the edited definition, the edit, the claim it breaks, the theorems that failed, and
the theorems added or tightened because of it. The mutants were built in a copy outside this repository.

## Per property

* **C01** (proved) IFDS results are exactly the facts on realizable paths. For seeds at start points, one start point per function, followReturnsPastSeeds off, and summaries whose call flow is empty (or callees without body); the completeness half needs only the seed condition.
* **C02** (proved) IDE results over-approximate every realizable path. For seeds at start points and edge functions/values that do not degenerate to Top (the solver deliberately stops at Top). C02_sound_facts needs well-behaved edge functions only for facts that can occur.
* **C03** (proved) IDE results are the join over all realizable paths (precision). Same structural conditions as C01, exact and distributive edge-function algebra (C03_lub); C03_lub_for needs exactness only of the edge functions between each pair of facts and is used for C73. C03_stays needs no soundness of joins: the reported value is in every set of values that the runs do not leave (used for C74).
* **C04** (proved) Result does not depend on worklist order. Values under the C03 conditions, facts without distributivity.
* **C05** (proved) solve() terminates. Both phases, in every processing order; also for an infinite fact domain with finitely many realizable facts; C05_ifds_total combines with C01. C05_terminates_facts needs well-behaved edge functions only for facts that can occur. C05_terminates_values is for value lattices of infinite height of which only values of finite height occur (used for C74).
* **C06** (partial) Interrupting and continuing does not change the result. Equivalence with solve() and absence of UB for completed sessions proved; the full claim is false of the code: cancellation on the last step followed by a continue is UB, and continueUntil can livelock (both proved).
* **C07** (proved) Intermediate solver states never contain unreachable facts. Conditions as in C01 without the summary condition.
* **C08** (proved) The zero fact holds wherever control can reach. Any flow functions, wrapped by ZeroedFlowFunction as the cache does.
* **C09** (partial) Returns past seeds are followed into every caller. False of the code: depends on processing order (C09_order_dependent), values lost (C09_value_lost). C09_partial: proved when no analysed call passes a seeded fact into the function.
* **C10** (partial) Special summaries replace the callee in both phases. Phase I proved; Phase II is false of the code (C10_phase2_enters_callee); C10_partial for empty call flow.
* **C11** (partial) Seeds inside a function body are honoured. False of the code for values (C11_value_lost) and precision (C11_spurious_fact); C11_partial: facts reported everywhere, values at calls and the seed.
* **C12** (partial) composeWith of the built-in edge functions is composition. Exact composition except for AllTop (C12_allTop_not_exact) and over-approximation for monotone functions; both failing cases proved.
* **C13** (proved) joinWith of the built-in edge functions is a pointwise upper bound. Upper bound for all built-in joins and sequences of joins.
* **C14** (proved) Repeated joining of edge functions converges. Repeated joins into one jump function reach a fixed point within a bound.
* **C15** (proved) LatticeDomain and BinaryDomain are join lattices with consistent comparison operators. LatticeDomain and BinaryDomain join/equality/order laws.
* **C16** (partial) All lookup views of the jump-function store agree. Forward/reverse lookups and foreachEdgeFunction exact for every history; lookupByTarget exact without removeFunction and sound always. With removeFunction the claim is false (C16_remove_drops_target), and removeFunction's result is wrong (C16_remove_result_wrong).
* **C17** (proved) Table behaves as a finite map of (row, column) to value. Refinement to a partial map for every history, all readers and return values. size is the number of rows.
* **C18** (partial) Caching flow and edge functions is unobservable. Queries return the problem's own answer for every history, given distinct keys, fewer than 2^32 values and callees determined by the call site (both needed: C18_callees_needed, C18_wide_keys_collide). At most one callback per key except for summary flow functions, which are not cached.
* **C19** (proved) Flow-function factories satisfy their documented equations. All factories and the legacy classes. The documented equations of transferFlow contradict each other when both parameters coincide; C19_transfer_same says what happens then.
* **C20** (proved) Adding zero automatically keeps all other flows. Wrapper and its use by the cache.
* **C21** (proved) Initial seeds are a map with last-write-wins. Every history of addSeed; zero adding at the start of solving, linked to the solver model.
* **C22** (proved) Result accessors agree with each other. Every result table. Also the LLVM SSA accessors: they agree except in the merge case with a default value that is not top (C22_ssa_disagree).
* **C23** (partial) Intra-procedural monotone solver computes the data-flow solution. Solution for every merge operator, least solution and termination for monotone flows over a finite-height semilattice when allTop is least, joins are reported as branch targets and only statements without predecessors are seeded. Each hypothesis is shown to be needed: livelock for a seed in a loop, the intersection-merging client that starts from the empty set, a join that is not reported as a branch target, a second solve().
* **C24** (partial) Inter-procedural monotone solver covers every realizable path. False for the code: returns are not propagated, contexts that coincide overwrite each other and do not terminate, break skips callees, direct recursion is treated as call-to-return, two seeds in one function. Proved: any Analysis map closed under the flows covers every realizable path for every limit K. Also proved: what one processed edge of each kind stores and queues (C24_*_step_partial), and that no run holds a fact outside any solution of the inequalities the worklist edges induce (C24_below_partial); facts leak between the return sites of different calls (C24_return_leaks).
* **C25** (partial) Call-string contexts hold the most recent K call sites. For K >= 1: suffix of the stack, at most K long, exact while the stack stayed within K, last K pushes after any history. False after returning past the limit (C25_forgets) and for K = 0 (C25_zero_unbounded). operator< names a member that does not exist and cannot be instantiated.
* **C26** (partial) BitVectorSet behaves as a set. Union, intersection, difference, insert, erase, count, ==, <, includes, iteration and size agree with the finite sets for every history. False for the hash of equal empty sets (C26_hash_empty) and for iteration while another set of the same type gains elements (C26_iteration_overrun).
* **C27** (partial) EquivalenceClassMap maps each key to the value it was inserted with. Proved for histories that never insert a key with two different values; false otherwise (C27_reinsert).
* **C28** (partial) StableVector is a sequence whose elements never move. All operations on any number of vectors refine lists without undefined behaviour or leaks, addresses stable and distinct, provided shrink_to_fit is not called on an empty vector. That case is a use after free in the code (C28_shrink_use_after_free, C28_false).
* **C29** (proved) Graph minimization preserves the rooted labelled paths. For every finite, possibly cyclic graph with weighted edges: terminates, exactly the same label sequences, no more nodes. llvm::IntEqClasses is modelled by leaders (not in the repository). The result is a fixed point: no two remaining nodes have the same outgoing edges (C29_fixpoint); it is not the minimal automaton (C29_not_minimal).
* **C30** (proved) AdjacencyList edit operations have multiset semantics. Histories of addNode/addEdge/addRoot/removeEdge/removeRoot/dedupOutEdges/pop refine multigraphs. C30_pop_dangling records that pop leaves in-edges and roots of the popped vertex.
* **C31** (proved) Alias sets always form a partition. For any allocator (released addresses may be reused) and any LLVM alias analysis. The traversal of the IR is abstract: per function the sequence of addPointer/addSingleton/merge calls. C31_calls: interface calls never hit the asserts or null boxes, for modules whose merges are of pointers their functions add. C31_representatives: the per-type representatives keep covering every class. C31_on_demand/C31_order: a query analyses exactly the functions it needs, and the order of the queries does not change the classes.
* **C32** (partial) Merging two alias analyses joins their equivalences. Proved when the other analysis relates no two pointers known here that were not related here; otherwise false in the code (C32_false: symmetry lost; C32_not_transitive). Not modelled: Search->second is read after inserts into the same DenseMap (invalidated iterator).
* **C33** (proved) Callers and callees are inverse views of the call graph. For every sequence of construction calls: callee and caller lists agree with the set of inserted edges, counts and vertex handles are right as long as the number of functions stays within the reservation (the code's own assert). C33_overflow, C33_overflow_write: beyond it handles dangle on reading and writing.
* **C34** (partial) Call graph survives serialization. Round trip proved for every non-empty graph whose ids are resolvable. C34_empty: the empty graph is printed as JSON null, which the reader rejects. C34_null_edge: an unresolvable id adds an edge from the null call site. C34_name_clash: functions with equal names are merged.
* **C35** (partial) Linear constant analysis computes the program's arithmetic. For every opcode, width 1..64 and operand pair: the low w bits of the folded constant are what the instruction computes, and the constants agree whenever the folded one is a w-bit number; exact for 64 bit and for bitwise operations. C35_exact: folding yields the mathematical result when it exists and fits into 64 bits, bottom otherwise. False in general: C35_width_false (results are not reduced to the width), C35_unsigned_false (udiv/urem computed as signed), C35_undefined_false (remainder of INT64_MIN by -1).
* **C36** (partial) Linear-constant edge functions satisfy the edge-function contract. Monotone on non-top values, composition exact (over-approximation after AllBottom), join upper bound, for every function built by any sequence of compositions and joins. Distributive for linear functions; false for multiplication by zero and the like (C36_distributive_false). Composition after AllTop is not composition (C36_compose_top_false); not monotone at top (C36_monotone_top_false).
* **C37** (partial) Instruction-interaction edge functions satisfy the edge-function contract. extend is composition (an over-approximation if the first function is AllTop) and combine is a pointwise upper bound except when a kill or a constant is joined with the identity or an add, where the code deliberately under-approximates (C37_combine_false). Joins of any number of functions of the same kind are exact.
* **C38** (partial) Typestate analysis follows the protocol automaton. Proved for every state machine that never enters its top state, end to end against independent protocols for C's file I/O and the four OpenSSL automata (key derivation functions and contexts, secure heap, secure memory); the stdio functions are classified as their C prototypes say. Exceptions shown as theorems: calls with several callees follow only the first consuming one (C38_callees_false), the OpenSSL automata are not monotone at the bottom state (C38_kdf_false, C38_heap_false), top is treated as uninitialized (C38_top_false), and the join of JoinLatticeTraits<CSTDFILEIOState> is not idempotent (C38_traits_join_false).
* **C39** (partial) Generalized constant sets over-approximate the possible values. Join, set operations, typecasts and operator< cover every member (pair); set operations respect the bound; every integer operation except subtraction computes LLVM's result. The unknown value absorbs, strings add by concatenation, edge functions of binary operations have the constant on the right side. False and shown so: integer subtraction (computes Lhs - Lhs), the bound when the left argument of join already exceeds it, constant division by zero and casts from 64 to 32 bits (assertion/UB), widening casts that keep the width, the ignored configured maximum, non-monotone binary edge functions on the empty set. Floating-point values only up to the code's own comparison.
* **C40** (partial) Sanitizer lattice of the extended taint analysis is a join lattice. Idempotent, bounded, never goes down a level, never forgets an unsanitized path (any order and number of joins, up to the suppression of leaks); kill edge function monotone and equality sound. Commutative and associative only up to the recorded exceptions; false in general and shown so, including an endless oscillation of two values. The transfer function is monotone except at top and its equality ignores the load (shown).
* **C41** (partial) Classifying special member functions terminates. The search loop ends exactly for the names that start with none of the codes (C41_loop_ends), in particular for all mangled names; the function hangs on C1 (C41_hang_false) and throws on numbers of 2^64 or more (C41_throw_false). C41_result: the result is the kind of the first code of the table with an occurrence that is not taken to be inside of an identifier, None if there is none. C41_constructor/destructor/copy/move: right for members of one class with a name of less than 48 characters; wrong for methods (C41_method_false) and longer names (C41_long_false).
* **C42** (partial) Successors and predecessors are inverse. Successors/predecessors are proved to be exactly the control-flow steps between visible instructions, mutually inverse with multiplicity, except at lazy static-initialisation branches (C42_false). isStartPoint with leading debug instructions (C42_start_false), isBranchTarget at non-first instructions (C42_branchTarget_false) and isExitInst on resume (C42_exit_false) disagree with the listing functions; agreement proved otherwise. C42_fallThrough, C42_declaration: the remaining queries.
* **C43** (proved) Edge-function handles never leak or dangle. Every sequence of construction (plain, cached, small), copy, move, assignment (self-assignment and assignment from inside the assigned function included), swap and destruction: no invalid access, counters exact, live iff reachable from a variable, no leak, caches exact. Sequential model; caches must stay where they are: moving one leaves dangling entries (shown).
* **C44** (partial) Type hierarchy answers are transitive closures. Debug-information hierarchy: terminates on every acyclic inheritance graph, getSubTypes, isSubType and hasType exact, super types inverse, partial order, virtual tables exact. Struct-type hierarchy: exact if names without prefix are distinct and type infos use casts; false otherwise and shown (opaque pointers, equal names). Which type a serialized name refers to is proved (C44_lookup). Reading serialized hierarchies back is the identity only with distinct plain names and without null entries in virtual tables; counterexamples given.
* **C45** (partial) Call-graph construction covers all functions reachable from the entry points. Termination and memory safety for every resolver with finitely many targets; exact edge set (least fixpoint), exact set of function vertices and order independence for resolvers whose answers grow only with the edges they are told about, provided changing resolvers report it and soundness is on. False otherwise: C45_unreported (as DTAResolver), C45_same_size, C45_unsound. preCall/postCall (empty everywhere) not modelled; the resolvers themselves (CHA, RTA, OTF, ...) are abstract.
* **C46** (partial) remove_by_index removes exactly the indexed elements. Random-access version (the only one instantiated) proved for every ascending index list whose first index is in range and which does not contain both the last index and the index behind it. C46_end: undefined behaviour otherwise. C46_forward_false: the version for other iterators removes the wrong elements as soon as two indices are given.
* **C47** (partial) The backward CFG mirrors the forward CFG. Backward predecessors/successors mirror the forward ones for every function; the artificial return node is proved in C47_ret. C47_false: getAllControlFlowEdges lists the pairs swapped and includes debug values, getPredsOf dereferences null for a return node. C47_paths_partial: paths are mirrored; C47_exit, C47_start_partial, C47_branchTarget: start and exit points and branch targets; C47_branchTarget_false: switches.
* **C48** (partial) StringIDLess is a strict order on ids. StringIDLess is a strict weak order, numbers come first and are ordered by value, and different numeric ids within the range of long are never equivalent; but because of comparing the wrong pointer all non-numeric ids are equivalent (C48_nonnumeric, C48_names_false). The orders of DOTNode and DOTEdge are strict weak orders. Beyond LONG_MAX numbers saturate and become equivalent (C48_overflow_false).
* **C49** (partial) The linear constant analysis reports only constants that hold in every execution. Flow functions, edge functions and seeds modelled as an input of the solver model. C49_sound_partial: in every execution (calls, recursion, globals, intrinsics), every tracked variable and memory location has a result at the current statement that describes its value; C49_terminates/C49_total_partial: the solver ends on every finite program. Missing: pointers passed to functions, unsigned division, division below 64 bits, external functions that write memory. False for values the analysis does not track (C49_untracked_false), overflow bits (C49_extract_false), saturating intrinsics (C49_saturating_false), calls with defined and external callees (C49_mixed_callees_false), external functions that change globals (C49_external_false).
* **C50** (partial) The LLVM flow-function templates map facts across calls and stores as documented. Exact characterisation of the facts produced by mapFactsAlongsideCallSite, mapFactsToCallee, mapFactsToCaller and strongUpdateStore, for all predicates and flags. The flag that suppresses the zero fact at returns has no effect when globals are propagated, since the zero value is itself a global (C50_zero_false); C50_caller_partial states what happens instead.
* **C51** (partial) The taint analysis reports every leak of an execution. All flow functions, summaries, seeds and the collection of leaks modelled as an input of the solver model; executions with taint bits, an object memory, recursion and external calls as specification. C51_operands_partial, C51_complete_partial (C51_complete_auto_partial with automatic zero facts): every tainted operand of every reached statement is a result there, every leak of an execution is reported, given sound aliases; C51_terminates, C51_total_partial: the solver ends on finite programs; C51_no_source: without sources nothing is reported; C51_not_entered: exactly which calls are not followed into the callee. Missing: memory holding addresses, fields of objects, variable arguments. False for arithmetic, phi and select (C51_arith_false), pointer parameters with one use (C51_one_use_false), structures returned through a pointer (C51_sret_false), aliases of what a library function writes (C51_library_alias_false), library functions that are also configured (C51_shadowed_library_false), pointers loaded later in the block (C51_later_alias_false); a declared sanitizer has no effect (C51_sanitizer_false).
* **C52** (partial) The recorded exploded supergraph contains the flows of the solver and nothing else. saveEdges, saveEdge, node making, connecting and the lookups modelled; the calls of the solver are any causal sequence. C52_total: indices stay inside; C52_registered: exactly the seeds and targets have nodes (seeds only if an edge leaves them); C52_value_partial; C52_links_sound_partial, C52_ends_partial: every link is a reported edge, every start a seed or zero; C52_links_complete_partial, C52_path_partial: every flow from a non-seed is a step back, paths are chains. False in general: the edge of a seed can be overwritten (C52_seed_lost_false), pairs of one block sharing a node share later alternatives (C52_merged_spurious_false), cycles without cyclic flows (C52_cycle_false), the second of two calls in a block missing (C52_two_calls_false), edges into seeds attached to the wrong fact (C52_seed_value_false), seeds without node (C52_seed_unregistered_false), the assertion can fail (C52_assert_false), getNumNeighbors returns a bool (C52_numNeighbors_false).
* **C53** (partial) The path graph extracted from the exploded supergraph has exactly the ways back as paths. pathsToImpl, pathsToImplLA with cache, current path and rollback, assertIsDAG, reverseGraph modelled; depth limit and minimisation in C59. C53_sound, C53_acyclic, C53_terminates, C53_nonempty (one fact), C53_invalid_unchanged, C53_assertIsDAG, C53_reverseGraph hold for all graphs and filters; C53_complete_partial for acyclic graphs without ends in the filter; C53_recorded_partial combines with C52: the statements of a way back are sources of reported edges. False in general: endless loop on cycles of plain predecessors (C53_loops_false, C53_endless_false on a recorded graph), an acyclic path lost because of the cache (C53_break_lost_false), all paths of the second fact lost (C53_second_lost_false), ends hidden when the way goes on (C53_end_hidden_false), inconsistent priority of end and error (C53_priority_false).
* **C54** (partial) Paths to a fact are reported exactly if calls and returns match and the constraints are satisfiable. filterOutUnreachableNodes, filterAndFlattenRevDag, both path filters with save and restore, isDirectSuccessorOf, deduplicatePaths and pathsTo modelled; Z3 is a parameter with soundness as hypothesis (any answer 'unknown' allowed). C54_direct, C54_callstack, C54_restore: the call stack filter accepts exactly the matched paths; C54_suitable: the graphs of C53 meet the hypotheses; C54_filter: no satisfiable path is removed; C54_paths: no duplicates, only paths of the graph that are matched and not refuted, with the right constraint, and all satisfiable matched ones above a threshold; C54_query_partial: the same in terms of the ways back of the exploded supergraph (completeness for acyclic ones); C54_final: when the doubled last edge is harmless. False in general: at a return of a called function nothing is reported (C54_return_false), more paths than the threshold (C54_threshold_false), a return past an invoke is accepted (C54_invoke_false).
* **C55** (partial) The constraint of an edge holds exactly if the branch takes the edge. LLVMPathConstraints.cpp modelled with its cache, except floating point. C55_cache, C55_steps: results do not depend on the cache or on the bound of steps; C55_none: which edges have no constraint; C55_exact_partial: the constraint exists and holds exactly if the edge is taken, for the conditions in Good; C55_casts: which casts keep the signed value; C55_trunc_partial: branches on a truncated variable (right for the true edge only); C55_phi: always valid; C55_base: which variable a load is translated to; C55_shift: shifts; C55_variables, C55_sort: constants belong to listed variables, constraints are Boolean; C55_path_partial, C55_reported_partial: with C54, a taken path with such conditions and one model is reported. False in general: false edge of a truncation (C55_trunc_false), overflow, division and remainder of negative numbers, unsigned comparisons, zero extension (C55_wrap_false, C55_sdiv_false, C55_srem_false, C55_unsigned_false, C55_zext_false), branches with one target (C55_same_target_false), values behind pointers (C55_deref_false), variables that change, are unnamed, or repeated calls (C55_changed_false, C55_unnamed_false, C55_call_false), blocks that begin with a debug instruction (C55_debug_false), fatal errors (C55_fatal_false), no termination (C55_endless_false).
* **C56** (partial) Type graphs return exactly the types that are reachable along links. CachedTypeGraph.cpp and LazyTypeGraph.cpp modelled with boost's depth-first search. C56_cached, C56_types: getTypes after any calls; C56_order, C56_new: order of links, result of addLink; C56_lazy, C56_lazy_types, C56_agree: the lazy graph; C56_aggregate_partial: aggregateTypes without cycles. False in general: a link to a literal type is propagated from the wrong vertex or ends the program (C56_literal_false, C56_poison_false), unnamed types share one vertex (C56_unnamed_false, C56_lazy_literal_false), aggregateTypes misses types on cycles (C56_aggregate_false).
* **C57** (partial) Call resolvers return exactly the functions their tables, types and alias sets allow, and miss none for primary virtual tables. All resolvers modelled on top of C44 (hierarchy) and C56 (type graph); alias sets are a parameter. Exact results: C57_consistent (signatures), C57_tables, C57_virtual, C57_cha, C57_allocated, C57_rta, C57_dta_link, C57_dta, C57_pointer, C57_otf_virtual, C57_otf_pointer (with termination), C57_pairs; C57_rta_le_cha. Soundness for primary tables: C57_cha_sound_partial, C57_rta_sound_partial. False in general: secondary tables (C57_secondary_false), virtual bases (C57_vbase_false), entries without cast (C57_direct_false), covariant return types (C57_covariant_false), class templates (C57_template_false), function pointers in structs (C57_struct_false), calls without prototype (C57_unprototyped_false), objects that are not plain locals or heap objects (C57_rta_false), casts in constructors (C57_dta_ctor_false, C57_constructor_false), initializers that are not aggregates (C57_otf_false); null dereference (C57_alloc_undefined).
* **C58** (partial) The uninitialized-variables analysis reports every use of an undefined value, under stated restrictions, and exactly what its flow functions carry. Executions with memory and undefined values (UninitSem.lean) and flow functions as a tabulation problem (Uninit.lean) on top of C01/C05. Exact: C58_store, C58_alloca, C58_use, C58_call, C58_ret, C58_alongside, C58_results, C58_reported, C58_terminates, C58_no_locals, C58_aggregate, C58_aggregate_split. Completeness under restrictions: C58_operands_partial, C58_complete_partial, C58_complete_auto_partial (with autoAddZero), and for programs that only load from, store through and pass on addresses without any condition on executions: C58_plain_partial, C58_total_partial. Each restriction is needed: C58_struct_false, C58_indirect_false, C58_callbr_false, C58_vararg_false, C58_lifetime_false, C58_undef_arg_false, C58_undef_ret_false, C58_alias_false, C58_global_false. Operands after an undefined literal are never reported (C58_masked_false); addresses are reported (C58_address_false); the report drops uses without a line and merges functions (C58_aggregate_false).
* **C59** (partial) Depth limit and minimisation leave the paths of a query as they are, up to missing beginnings. reverseDAG (model for any classes, theorems for the identity, the only one used), the call of the minimiser (C29) and the options of pathsDagToAll modelled. C59_reverse: exact description of the graph; C59_limit: exact description of its paths, and how they relate to those without the limit; C59_minimize: paths, size and acyclicity; C59_total: every combination of options, never out of bounds, never the fatal error, one leaf for one fact; C59_query_partial: what pathsTo reports (completeness inherits the conditions of C53_complete_partial and C54_query_partial). False in general: the limit does not bound the length of paths (C59_length_false).
* **C60** (partial) Ids of values are dense, stable, and lead back to the values. Construction (with and without preprocessing), insertFunction, the lookups, getMetaDataID and fromMetaDataId modelled; LLVM's metadata is a map from values to strings. C60_ids, C60_stable: the ids are the positions, for every history. C60_roundtrip: the string leads back for every processed global variable and instruction. C60_unambiguous: the strings determine the values. False for arguments of functions with a dot in the name (C60_dotted: never found; C60_dotted_false: another function's argument is found); C60_arguments_partial: all others are found. C60_unknown: which strings are rejected. C60_unprocessed, C60_trailing: no ids without preprocessing; trailing characters are ignored.
* **C61** (partial) Alias sets that are saved as JSON and loaded again answer the same queries. Model on top of C31 (alias sets) and C60 (ids). C61_reload_partial: what saving and loading keeps, exactly; values without id are dropped. C61_resume: nothing is lost if all known values have ids that lead back to them, also for later computations. C61_foreign: any document with arrays is loaded, unknown ids are skipped. False for functions, arguments of functions with dotted names, and if nothing has been computed (C61_functions_false, C61_dotted_false, C61_empty_false).
* **C62** (partial) The slot tracker of a module lives exactly as long as a database of the module. The map ModulesToSlotTracker with its reference counts; the trackers themselves are not modelled. C62_lifetime_partial: exact for every history without updateMSTForModule. False with it: the update constructs a bare ModuleSlotTracker where a wrapper with a count was, so that the next construction or destruction reads an indeterminate count (C62_update_false; C62_history_false: create, update, destroy). C62_update_get: uses remain possible.
* **C63** (partial) The model of global constructors and destructors runs what the C++ runtime runs, in its order. buildModel modelled as a transformation of modules, with an execution semantics (Run) of the generated code that is independent of it. C63_runs_partial: the executions, exactly, for every module with free names that meets the assertions. C63_uncalled: which entry points are called. C63_database: ids of the generated instructions. C63_generated, C63_names: which functions and names are recognised. C63_entries: which entry points are found. False: main with other than 0 or 2 parameters (C63_envp_false), order at exit (C63_exit_false), recognition of the caller of registered destructors (C63_generated_false), registered arguments that are local values or constant expressions (C63_local_false, C63_gep_false), building twice (C63_twice_false: assertion; C63_stale: without the database the old entry points stay in effect). The order of the users of __cxa_atexit is a parameter.
* **C64** (partial) The typestate analysis reports the state of every object that a variable points to, and every error. All flow functions, alias caches, edge selection, seeds and the report as a problem of the solver model; an execution semantics with objects and automaton states that is independent of it (TSSem.lean). Exact flow functions: C64_names, C64_matching, C64_relevant, C64_normal, C64_call, C64_ret_partial, C64_over, C64_edges. C64_sound_partial: results describe every execution, for every program (WF), exact alias information at calls (AliasOk) and automata that leave bottom alone (Regular; proved for the file API), with and without autoAddZero. C64_terminates, C64_reached, C64_analysis_partial, C64_report_partial, C64_reported, C64_cached, C64_caches_partial. False without the requirements: may-aliases get strong updates (C64_may_alias_false), errors behind a join are not reported (C64_report_false), only the first matching argument is killed (C64_second_argument_false), globals and temporaries are lost at calls (C64_global_false, C64_temporary_false), opaque pointers (C64_opaque_false), caches with alias sets that are no classes (C64_caches_false), uninitialized pointer (C64_vararg_false), unknown callees (C64_no_callee_false).
* **C65** (partial) An abstract memory location is canonical, bounded and stands for the memory it was made for. All functions of the location, its factory and its allocator. Proved for all histories: C65_defined (no assertion fails), C65_canonical, C65_bounded, C65_repeat. Against an evaluation of access paths in an arbitrary memory: C65_path, C65_create, C65_offset, C65_offsets, C65_indirection, C65_indirection_none, C65_transfer_from, C65_cell, C65_param; comparisons C65_equivalent, C65_proper_prefix, C65_equivalent_pa, C65_overlap. Partial where a tainted location is compared with the value stored, passed or returned: C65_store_partial, C65_ret_partial, C65_transfer_to_partial, C65_map_back_partial, C65_must_alias_partial; what a return leaves out C65_map_back_only; C65_alloc_partial up to 6141 offsets, C65_reserved. False: lifetimes depend on history (C65_lifetime_false), unknown indices (C65_index_false, C65_index_kill_false), pointers to fields (C65_field_pointer_false, C65_field_argument_false, C65_field_return_false), tainted buffers (C65_buffer_false), the last offset (C65_last_offset_false), over-approximations that come back exact (C65_back_false), blocks (C65_alloc_false).
* **C66** (partial) The extended taint analysis records every leak its facts show and drops only what was sanitized. All flow functions and edge functions, leaks and post-processing, on the locations of C65 and the lattice of C40. Exact: C66_store, C66_config, C66_normal, C66_call, C66_ret, C66_over, C66_summary; C66_normal_edge, C66_call_edge, C66_call_edge_id, C66_ret_edge, C66_over_edge, C66_summary_edge; C66_insert, C66_post, C66_load. For all paths: C66_kept (no fact is lost within a function), C66_cause (every sanitizer has a cause), C66_clean and C66_reported (a path that sets no sanitizer keeps the leak), C66_weak. C66_answers: the factory may be taken at its end. False: external functions count as sanitizers (C66_declaration_false), leaks are looked up under one fact only (C66_post_false), arithmetic (C66_arith_false), sanitizers with bodies (C66_sanitizer_false), leaks are printed before they are dropped (C66_printed_false), calls without callees end the analysis (C66_no_callee_false), the search for a load need not end (C66_load_false). Not modelled: precise alias information, which the code never has; `HasPreciseAliasInfo` is never set. The tables of the solver are not combined with this lattice, whose join is no least upper bound (C40); what is said holds for all paths.
* **C67** (partial) The analysis of mutable memory locations finds every location written twice, whatever the order of the solver. The flow functions, the member Initialized as state that requests change, and the report. Exact: C67_answer (what a request is answered, in terms of the requests before), C67_normal, C67_call, C67_ret, C67_past, C67_results. For all orders of requests: C67_two, C67_generated, C67_mutable_partial (two different statements write one location: a fact from one of them on), C67_origin, C67_separate. C67_report_partial: what the report keeps of the locations it is given. False: one statement that writes repeatedly (C67_loop_false), order dependence and locations written once (C67_order_false), second runs (C67_again), the report is always empty (C67_report_false). The flow functions are those in the cache of the solver at the end (C18); the order in which the solver asks is a parameter.
* **C68** (partial) The intraprocedural uninitialized-variables analysis reports the variables that are uninitialized on every path. Exact: C68_results (the variables reported are those with a finite derivation), C68_terminates. C68_paths: reported variables are allocated on every path with no integer constant stored since. Partial: C68_uninit_partial (functions that store constants only), C68_acyclic_partial (functions without cycles: nothing of the kind is missed), C68_cycle (nothing is reported on cycles). False: loops (C68_loop_false), stores of values that are not constants (C68_store_false), undef (C68_undef_false), variables uninitialized on some path only, which the name of the analysis suggests (C68_some_path_false). The solver is that of C23.
* **C69** (partial) The intraprocedural constant propagation states only values that every execution has. C69_results (equations the results satisfy), C69_alloca, C69_load, C69_store, C69_bin, C69_other (the flow functions exactly). C69_sound_partial: executions have the reported constants if operands have the right types, integer variables are written through their allocas only and with values the results know, and signed arithmetic stays in range. C69_cycle: nothing from before a cycle is known on it. False in general: C69_store_false, C69_alias_false, C69_call_false, C69_width_false, C69_unsigned_false; imprecise: C69_loop_false, C69_bottom_false. Missing: termination of the solver on this problem.
* **C70** (partial) A taint configuration file marks the values it describes. C70_read (round trip), C70_category (unknown categories are rejected), C70_defined and C70_marks (when a configuration can be built, and exactly what is marked). C70_exact_partial: the marks are those described if names are unambiguous, the users of functions are their calls and no scope names a struct. False in general: required entries can be missing (C70_required_false), indices are cast (C70_index_false), overloads after the first are dropped (C70_overload_false), null definitions are dereferenced (C70_null_false), all users count as calls (C70_user_false), members of all structs are marked (C70_struct_false), with the categories of all variables (C70_mix_false).
* **C71** (partial) Annotations in a module mark the values annotated. Exact: C71_defined, C71_marks. False: local variables that an argument is assigned to (C71_local_false), annotated global variables (C71_global_false, for all modules with one), prefixes (C71_prefix_false).
* **C72** (partial) The queries of a taint configuration agree with the marks and with each other. Exact: C72_generated_call, C72_generated_other, C72_leaks, C72_defined, C72_asks, C72_category, C72_seeds. C72_agree: both ways of asking agree if the call has enough arguments. C72_generates_partial. False: source arguments of calls (C72_generates_false), the sanitizer call-back (C72_callback_false), calls with too few arguments (C72_arity_false).
* **C73** (proved) The secure heap propagation reports what has happened to OpenSSL's secure heap. End to end through the model of the solver: C73_exact (all three answers characterised), C73_sound (executions proper), C73_order, C73_terminates. The intended meaning is false in four ways: a second initialisation is not recognised (C73_reinit_false), INITIALIZED does not mean all executions (C73_paths_false), calls through pointers are not seen (C73_indirect_false), facts are carried over calls that never return (C73_noreturn_false).
* **C74** (partial) The instruction interaction analysis reports the labels of the instructions that influence a value. End to end through the model of the solver. For all programs: C74_precise (no label is invented), C74_defined (report_fatal_error is not reached), C74_terminates. Where unknown and known labels do not meet (Sep): C74_exact, C74_order. Executions: C74_sound, for programs without the patterns of the counterexamples. Soundness for all programs is false in nine ways: C74_alias_false, C74_constop_false, C74_function_false, C74_constarg_false, C74_sret_false, C74_opaque_false, C74_meet_false, C74_mixed_false, C74_unresolved_false.
* **C75** (partial) The Hexastore returns exactly the matching triples that were put. C75_get: exact for seven of the eight patterns, all histories. C75_put_twice: idempotent, all databases. The pattern (S, ?, O) is wrong (C75_sxo_false, C75_sxo_spurious_false): exact if no two predicates connect a subject and an object (C75_sxo_partial); otherwise, with ids used up by ignored insertions, exactly the first triple (C75_sxo_first). The index OPS, which no query uses, is wrong (C75_ops_false). SQL statements are modelled by their documented meaning; names are taken literally.
* **C76** (proved) The CFL alias analysis (Andersen) computes the value-alias relation of its graph. Intraprocedural part (calls without summaries). C76_reach, C76_symm, C76_states, C76_attr, C76_terminates, C76_order, C76_alias_symm: all functions and orders. The comment that the set is symmetric is true of the pairs and false of the states (C76_states_symm_false).
* **C77** (partial) The CFL alias analysis does not separate values that hold the same pointer. C77_sound_partial: all executions of functions without ptrtoint, cmpxchg, constant expression inttoptr, calls marked noalias, and read-only calls with pointer argument and result. Each of these exclusions is necessary: C77_readonly_false, C77_noalias_false, C77_ptrtoint_false, C77_cmpxchg_false, C77_inttoptr_false. Objects have one cell each; summaries of callees are not modelled.
* **C78** (partial) StratifiedSets: merging keeps chains of sets and puts together exactly what the requests demand. All but the last sentence holds for all histories: C78_total, C78_values, C78_with, C78_below, C78_above, C78_chains, C78_labels, C78_least, C78_attrs; path compression changes nothing (C78_compress). That values put below members of one set are in one set holds if the values have levels that fit the requests (C78_congr_partial); after a merge of a set with the one below it, it is false (C78_congr_false), and the result depends on the order of requests (C78_order_false).
* **C79** (partial) The unification-based CFL alias analysis (Steensgaard) is a coarser, sound version of the inclusion-based one. C79_total and C79_least hold for all functions and orders. For functions whose values have depths (Depth: no value is assigned to a cell it points to) and without constants like null: C79_va_partial, C79_same_partial, C79_attrs_partial, C79_over_partial, C79_sound_partial, C79_order_partial. Without depths the analysis is unsound (C79_cycle_false) and depends on the order of the hash table (C79_order_false). Summaries of callees are not modelled.
* **C80** (partial) The alias graph reports the allocation sites connected to a pointer. C80_sites_partial, C80_order_partial, C80_introduced_partial, C80_vertices_partial, C80_merge_own_partial, C80_merge_other_partial: exact answers for instructions and parameters that are pointers, aliases introduced without an instruction, and an alias analysis that relates only pointers of the function it was asked for. Each restriction is necessary: C80_global_false, C80_default_false, C80_label_false, C80_order_false, C80_merge_false. Alias sets and alias queries fail for every value in every graph: C80_alias_false.
* **C81** (partial) The exported graph is the inter-procedural control-flow graph. C81_dot_partial, C81_json_partial, C81_sci_partial, C81_agree_partial, C81_closed_partial, C81_nodes: exact edges and labels, for modules without branches on the initialization of static variables (their successors are C42_lazy). Conditions and why they are needed: no callbr with two successors (C81_callbr_false), debug instructions ignored or none at the start of a function for JSON (C81_json_false), source code information on the first instruction (C81_sci_false). The labels do not tell a switch from a branch (C81_switch_false) nor returns from exceptions (C81_unwind_false).
* **C82** (proved) Every object held by a MaybeUniquePtr has one owner and is deleted once. C82_safe, C82_owner, C82_leak, C82_get, for all sequences of operations. Two differences to std::unique_ptr are shown: move assignment exchanges instead of deleting (C82_assign_false), and a released pointer is not null (C82_release_false). Not modelled: reset(MaybeUniquePtr<TT> &&) with TT other than T, which does not compile, and destructors of objects that use the pointers.
* **C83** (partial) The inter-procedural monotone taint analysis finds every tainted value that is moved, stored, loaded and passed. C83_flows and C83_config say exactly what the flow functions compute, C83_distributive and C83_monotone that they suit the solver, C83_leak_exact what is recorded. Soundness against executions is C83_sound_partial, C83_leak_partial, C83_result_partial, for programs that are fit (C83_static gives a criterion on the text). The full claim is false: computations (C83_op_false), tainted pointers (C83_pointer_false), aliases (C83_alias_false), globals (C83_global_false), pointers passed to declared functions (C83_declaration_false) or as variadic arguments (C83_vararg_false). C83_main_false and C83_arity say when the code is undefined. C83_result_partial also assumes that the solver's map satisfies the inequalities, which C24 shows to fail at times.
* **C84** (partial) Measured timers, counters and histograms are what happened. C84_timer, C84_elapsed, C84_protocol, C84_counter, C84_sum, C84_histogram for all histories. The export is complete for timers that were not both paused and stopped (C84_export_partial); for those that were, the last interval is lost (C84_export_false). Not modelled: the printed text, a clock that runs backwards.
* **C85** (partial) The generalized constant analysis computes the values that executions produce. Exact flows (C85_normal, C85_callee, C85_caller with the exact conditions of undefined behaviour, C85_call_to_return, C85_string_constructor, C85_seeds, C85_constant) and exact edges (C85_edge_*). C85_sound_partial, C85_reached, C85_result_partial: executions are covered by realizable runs, for programs that satisfy WF and tracked values. Missing: tracked values of casts, address computations and floating-point arithmetic; memory accessed other than by name; the link to the solver's tables. False in general: C85_global_false, C85_merge_false, C85_loop_false, C85_printf_false, C85_array_false, C85_offset_false, C85_resume_false, C85_element_false.
* **C86** (partial) Interprocedural monotone constant propagation follows constants through calls. Exact flows: C86_call, C86_return, C86_past, C86_edge, C86_solver, with the exact conditions of undefined behaviour C86_call_undefined, C86_return_undefined. C86_join: at joins nothing is ever known, in any state of the solver. C86_sound_partial: the facts along an execution hold in it, in all frames, for programs without pointer arguments, with known stored values, arithmetic in range and callees that leave the caller's variables alone. Missing: the solver's tables, for which it is false: C86_two_returns_false, C86_pointer_false, C86_returned_false.
* **C87** (partial) General statistics are the counts of the module. Exact for all modules: C87_report (JSON), C87_text, C87_sets, C87_undefined, C87_indent, C87_aligned, C87_rerun. The claim about maxima is false (C87_max_false); what is reported instead is exactly C87_max, and C87_max_partial bounds it. The claim about address-taken functions is false for functions passed to themselves (C87_address_taken_false); C87_address_taken is what is counted, C87_address_taken_partial the claim for all other functions.
* **C88** (partial) Values are mapped to their source location. Exact for all values: C88_intrinsic, C88_name, C88_location, C88_agree, C88_path, C88_context, C88_source, C88_trim, C88_info. The file is that of the location except for instructions with other metadata users (C88_file_partial, C88_file_false). The function name is lost in JSON (C88_json_false; exactly what is written and read: C88_json, C88_json_read, C88_json_eq). Equivalence is exactly C88_equivalent, which is not the claim (C88_equivalent_false, C88_equivalent_partial).
* **C89** (proved) Solver options are what was last set. C89_bits, C89_has, C89_set for flag words of any width; C89_config for all sequences of calls; C89_initial. Beyond the property: what operator<< writes (C89_print_partial) and that it writes the first option as a digit (C89_print_false).
* **C90** (proved) Initial seeds are at the start points of the entry points. C90_order (which start points, in which order); exact seeds: C90_default, C90_add, C90_lca, C90_glca, C90_iia, C90_taint, C90_xtaint. Beyond the property: C90_lca_undefined (exactly when the assertion of getSExtValue fails), C90_taint_all_false and C90_all_false (what __ALL__ does not do).
* **C91** (partial) The ICFG gives the solver queries that fit together. Forward graph: C91_wf, C91_unique, C91_wfv discharge the graph assumptions of the solver theorems on the statements that are no debug instructions (C91_visible: nothing else is reached), C91_wfv_all says exactly when they hold on all instructions, C91_queries_partial gives the answers of each query (missing: successors of lazy-initialization branches, see C42_lazy), C91_ifds and C91_ide combine them with C01 and C02. Backward graph: C91_backward_wf, C91_backward_queries, C91_backward_start hold; the rest is false: C91_backward_wfv_false (every program), C91_backward_none (no values at first instructions, all IDE problems), C91_backward_false (an IFDS problem with missing results).
* **C92** (partial) Library summaries hold what they are told and flow as they say. Holds: C92_facts, C92_known, C92_read, C92_query (LLVMFunctionDataFlowFacts), C92_flow (exact, including when it fails), C92_flow_variadic, C92_libc, C92_libc_known, C92_libc_noop, C92_libc_variants_partial (94 functions), C92_libc_strings (exact entries of 62 string functions). False: getDataFlowFacts is undefined for a known function and a parameter without entry (C92_get says exactly when, C92_get_false), the flow is undefined for some calls of snprintf, fscanf, sscanf (C92_libc_flow_false), nothing flows to the buffer of snprintf (C92_libc_snprintf_false), a copying function such as strcpy does not taint the pointer it returns (C92_libc_copy_false, exact), strchr, atoi, sprintf and others are missing (C92_libc_missing_false), 11 mathematical functions have variants with other entries (C92_libc_variants_false).
* **C93** (partial) Helper analyses are made once, on demand, from the given options. C93_answer, C93_stable, C93_once, C93_lazy (exact), C93_destroy hold for all configurations and sequences. Independence of the order is false for getCFG only (C93_cfg says exactly what it returns, C93_cfg_false).
* **C94** (partial) Special function names are exactly those listed in the configuration. C94_parse, C94_empty, C94_names are exact for all texts and file systems. That no empty name is loaded is false (C94_empty_false); so is that every listed function becomes special (C94_star_false).
* **C95** (partial) Names and flags of option enumerations are read as what they stand for. C95_switch, C95_dfa, C95_cga, C95_aa, C95_strat, C95_snd, C95_smf, C95_distinct hold for all strings and values. For AliasResult the round trip is false (C95_alias, C95_alias_false). Values outside of an enumeration are not modelled. These theorems were not mutation-tested.

## Axioms

Output of `#print axioms` for every property theorem.

| Theorem | Axioms |
|---|---|
| `IDE.C01_ifds_exact` | propext, Classical.choice, Quot.sound |
| `IDE.C01_ifds_complete` | propext, Classical.choice, Quot.sound |
| `IDE.C02_sound_facts` | propext, Classical.choice, Quot.sound |
| `IDE.C02_sound` | propext, Classical.choice, Quot.sound |
| `IDE.C02_sound_for` | propext, Classical.choice, Quot.sound |
| `IDE.C02_builtin` | propext, Classical.choice, Quot.sound |
| `IDE.C03_lub` | propext, Classical.choice, Quot.sound |
| `IDE.C03_lub_for` | propext, Classical.choice, Quot.sound |
| `IDE.C03_stays` | propext, Classical.choice, Quot.sound |
| `IDE.C04_order_independent` | propext, Classical.choice, Quot.sound |
| `IDE.C04_facts_order_independent` | propext, Classical.choice, Quot.sound |
| `IDE.C05_terminates_facts` | propext, Classical.choice, Quot.sound |
| `IDE.C05_terminates` | propext, Quot.sound |
| `IDE.C05_terminates_reachable` | propext, Quot.sound |
| `IDE.C05_terminates_values` | propext, Quot.sound |
| `IDE.C05_ifds_total` | propext, Classical.choice, Quot.sound |
| `IDE.C06_partial` | propext, Classical.choice, Quot.sound |
| `IDE.C06_cancel_on_last_step` | propext |
| `IDE.C06_zero_interval_livelock` | propext |
| `IDE.C06_slow_batch_livelock` | propext, Quot.sound |
| `IDE.C06_cancel_on_last_batch` | propext, Classical.choice, Quot.sound |
| `IDE.C06_solve` | propext, Classical.choice, Quot.sound |
| `IDE.C07_intermediate` | propext, Classical.choice, Quot.sound |
| `IDE.C07_any_order` | propext, Quot.sound |
| `IDE.C08_zero_everywhere` | propext, Classical.choice, Quot.sound |
| `IDE.C09_order_dependent` | propext, Quot.sound |
| `IDE.C09_partial` | propext, Classical.choice, Quot.sound |
| `IDE.C09_calls_partial` | propext, Classical.choice, Quot.sound |
| `IDE.C09_value_lost` | propext, Quot.sound |
| `IDE.C10_phase1` | propext, Quot.sound |
| `IDE.C10_summary_applied` | propext, Classical.choice, Quot.sound |
| `IDE.C10_phase2_enters_callee` | propext, Quot.sound |
| `IDE.C10_partial` | propext, Classical.choice, Quot.sound |
| `IDE.C11_value_lost` | propext, Quot.sound |
| `IDE.C11_spurious_fact` | propext, Quot.sound |
| `IDE.C11_partial` | propext, Classical.choice, Quot.sound |
| `EF.C12_compose_over` | propext |
| `EF.C12_compose_exact` | propext |
| `EF.C12_compose_proper` | propext |
| `EF.C12_const_unwrap_safe` | propext |
| `EF.C12_allTop_not_exact` | propext, Classical.choice, Quot.sound |
| `EF.C12_allTop_not_over_nonmonotone` | propext |
| `EF.C13_join_upper` | propext, Quot.sound |
| `EF.C13_join_exact` | propext, Classical.choice, Quot.sound |
| `EF.C13_join_sequence` | propext, Quot.sound |
| `EF.C13_join_bounded` | propext, Quot.sound |
| `EF.C13_const_unwrap_safe` | propext |
| `EF.C14_converges` | propext, Quot.sound |
| `C15_lattice_join` | propext, Classical.choice, Quot.sound |
| `C15_lattice_join_lub` | propext, Classical.choice, Quot.sound |
| `C15_lattice_eq` | propext |
| `C15_lattice_eq_decides` | propext |
| `C15_lattice_lt` | propext, Classical.choice, Quot.sound |
| `C15_binary` | none |
| `C16_forward_reverse` | propext, Quot.sound |
| `C16_partial` | propext, Quot.sound |
| `C16_remove_drops_target` | none |
| `C16_remove_result_wrong` | none |
| `C17_refines` | propext, Classical.choice, Quot.sound |
| `C17_return_values` | propext, Classical.choice, Quot.sound |
| `C18_unobservable` | propext, Classical.choice, Quot.sound |
| `C18_at_most_once_partial` | propext, Quot.sound |
| `C18_summary_not_cached` | propext |
| `C18_callees_needed` | propext |
| `C18_wide_keys_collide` | propext |
| `C19_factories` | propext |
| `C19_union` | propext, Classical.choice, Quot.sound |
| `C19_compose` | propext, Quot.sound |
| `C19_legacy` | propext |
| `C19_nodup` | propext, Quot.sound |
| `C19_transfer_same` | propext |
| `C20_zeroed` | propext, Quot.sound |
| `C20_idempotent` | propext, Quot.sound |
| `C20_cache` | propext |
| `C21_last_write_wins` | propext, Classical.choice, Quot.sound |
| `C21_from_sets` | propext, Quot.sound |
| `C21_zero_added` | propext, Classical.choice, Quot.sound |
| `C21_solver_seeds` | propext, Quot.sound |
| `C22_agree` | propext, Classical.choice, Quot.sound |
| `C22_value_ignored` | propext, Quot.sound |
| `C22_ssa` | propext, Quot.sound |
| `C22_ssa_merge` | propext, Classical.choice, Quot.sound |
| `C22_ssa_disagree` | propext, Classical.choice, Quot.sound |
| `C23_equations` | propext, Quot.sound |
| `C23_solution` | propext, Quot.sound |
| `C23_least` | propext, Classical.choice, Quot.sound |
| `C23_below` | propext, Classical.choice, Quot.sound |
| `C23_terminates` | propext, Classical.choice, Quot.sound |
| `C23_mid_seed_livelock` | propext, Quot.sound |
| `C23_uninit_loop` | propext, Quot.sound |
| `C23_branch_target_needed` | propext, Quot.sound |
| `C23_solve_twice` | propext |
| `C24_normal_step_partial` | propext, Classical.choice, Quot.sound |
| `C24_call_step_partial` | propext, Classical.choice, Quot.sound |
| `C24_call_to_return_step_partial` | propext, Classical.choice, Quot.sound |
| `C24_exit_step_partial` | propext, Quot.sound |
| `C24_below_partial` | propext, Quot.sound |
| `C24_solve_below_partial` | propext, Quot.sound |
| `C24_return_leaks` | propext, Quot.sound |
| `C24_partial` | propext |
| `C24_return_not_propagated` | propext, Quot.sound |
| `C24_collision_livelock` | propext, Quot.sound |
| `C24_break_skips_callee` | propext, Quot.sound |
| `C24_recursion_as_call_to_return` | propext, Quot.sound |
| `C24_two_seeds` | propext, Quot.sound |
| `C25_partial` | propext, Quot.sound |
| `C25_recent` | propext, Quot.sound |
| `C25_pop_push` | propext, Quot.sound |
| `C25_equality` | propext, Quot.sound |
| `C25_init` | propext, Quot.sound |
| `C25_forgets` | none |
| `C25_zero_unbounded` | propext, Quot.sound |
| `C26_partial` | propext, Classical.choice, Quot.sound |
| `C26_hash` | propext, Quot.sound |
| `C26_hash_empty` | propext |
| `C26_iteration_overrun` | propext |
| `C26_less` | propext, Classical.choice, Quot.sound |
| `C26_union_inter` | propext, Quot.sound |
| `C27_partial` | propext, Quot.sound |
| `C27_reinsert` | propext |
| `C27_two_classes` | propext |
| `C27_first_class` | propext, Quot.sound |
| `C28_partial` | propext, Classical.choice, Quot.sound |
| `C28_stable` | propext, Classical.choice, Quot.sound |
| `C28_distinct` | propext, Classical.choice, Quot.sound |
| `C28_shrink_use_after_free` | propext, Quot.sound |
| `C28_false` | propext |
| `C29_minimize` | propext, Classical.choice, Quot.sound |
| `C29_node_labels` | propext, Classical.choice, Quot.sound |
| `C29_classes` | propext, Classical.choice, Quot.sound |
| `C29_fixpoint` | propext, Classical.choice, Quot.sound |
| `C29_not_minimal` | propext, Quot.sound |
| `C30_step` | propext, Classical.choice, Quot.sound |
| `C30_run` | propext, Classical.choice, Quot.sound |
| `C30_order` | propext, Quot.sound |
| `C30_remove_iter` | propext, Classical.choice, Quot.sound |
| `C30_remove_root_iter` | propext, Classical.choice, Quot.sound |
| `C30_dedup` | propext, Quot.sound |
| `C30_pop_dangling` | propext |
| `Alias.C31_on_demand` | propext, Classical.choice, Quot.sound |
| `Alias.C31_order` | propext, Classical.choice, Quot.sound |
| `Alias.C31_partition` | propext, Quot.sound |
| `Alias.C31_handles` | propext, Quot.sound |
| `Alias.C31_calls` | propext, Quot.sound |
| `Alias.C31_introduce` | propext, Quot.sound |
| `Alias.C31_representatives` | propext, Quot.sound |
| `Alias.C32_partial` | propext, Quot.sound |
| `Alias.C32_false` | propext |
| `Alias.C32_not_transitive` | propext |
| `CG.C33_lists` | propext, Quot.sound |
| `CG.C33_counts` | propext, Quot.sound |
| `CG.C33_handles` | propext, Quot.sound |
| `CG.C33_assert` | propext, Quot.sound |
| `CG.C33_overflow` | propext |
| `CG.C33_overflow_write` | propext |
| `CG.C34_roundtrip_partial` | propext, Classical.choice, Quot.sound |
| `CG.C34_empty` | propext |
| `CG.C34_null_edge` | propext |
| `CG.C34_name_clash` | propext |
| `LCA.C35_fold_partial` | propext, Classical.choice, Quot.sound |
| `LCA.C35_fold_64_partial` | propext, Classical.choice, Quot.sound |
| `LCA.C35_exact` | propext, Classical.choice, Quot.sound |
| `LCA.C35_bitwise` | propext, Classical.choice, Quot.sound |
| `LCA.C35_chain` | propext, Classical.choice, Quot.sound |
| `LCA.C35_undefined` | propext, Quot.sound |
| `LCA.C35_undefined_false` | propext, Quot.sound |
| `LCA.C35_width_false` | propext, Quot.sound |
| `LCA.C35_unsigned_false` | propext, Quot.sound |
| `LCA.C36_created` | propext, Quot.sound |
| `LCA.C36_no_fatal` | propext, Quot.sound |
| `LCA.C36_monotone` | propext, Classical.choice, Quot.sound |
| `LCA.C36_distributive_partial` | propext, Classical.choice, Quot.sound |
| `LCA.C36_distributive_false` | propext, Classical.choice, Quot.sound |
| `LCA.C36_monotone_top_false` | propext, Classical.choice, Quot.sound |
| `LCA.C36_compose` | propext, Quot.sound |
| `LCA.C36_compose_bottom` | propext, Classical.choice, Quot.sound |
| `LCA.C36_compose_top_false` | propext, Quot.sound |
| `LCA.C36_equal` | propext |
| `LCA.C36_join` | propext, Classical.choice, Quot.sound |
| `LCA.C36_built` | propext, Quot.sound |
| `IIA.C37_union` | propext, Quot.sound |
| `IIA.C37_extend` | propext, Quot.sound |
| `IIA.C37_extend_top` | propext, Quot.sound |
| `IIA.C37_extend_top_false` | propext |
| `IIA.C37_path` | propext, Quot.sound |
| `IIA.C37_combine_partial` | propext, Quot.sound |
| `IIA.C37_combine_total` | propext |
| `IIA.C37_combine_exact` | propext, Quot.sound |
| `IIA.C37_combine_comm` | propext, Quot.sound |
| `IIA.C37_combine_false` | propext, Quot.sound |
| `IIA.C37_joins_partial` | propext, Quot.sound |
| `IIA.C37_joins_total` | propext |
| `IIA.C37_monotone` | propext, Quot.sound |
| `IIA.C37_distributive` | propext, Quot.sound |
| `TypeState.C38_join_states` | propext |
| `TypeState.C38_join_lub` | propext |
| `TypeState.C38_traits_join_false` | none |
| `TypeState.C38_traits_join_partial` | propext |
| `TypeState.C38_compose` | propext |
| `TypeState.C38_path_function` | propext |
| `TypeState.C38_path` | propext, Classical.choice, Quot.sound |
| `TypeState.C38_join` | propext, Quot.sound |
| `TypeState.C38_join_exact` | propext |
| `TypeState.C38_file_protocol` | propext, Classical.choice, Quot.sound |
| `TypeState.C38_file` | propext, Classical.choice, Quot.sound |
| `TypeState.C38_file_uninit` | propext, Classical.choice, Quot.sound |
| `TypeState.C38_file_monotone` | propext |
| `TypeState.C38_file_signatures` | propext, Quot.sound |
| `TypeState.C38_file_reopen` | none |
| `TypeState.C38_call_edge` | propext, Quot.sound |
| `TypeState.C38_kdf_protocol` | propext, Classical.choice, Quot.sound |
| `TypeState.C38_kdf_unfetched` | propext |
| `TypeState.C38_kdf_new` | propext |
| `TypeState.C38_fetch_protocol` | propext, Classical.choice, Quot.sound |
| `TypeState.C38_heap_protocol` | propext |
| `TypeState.C38_heap_uninit` | propext |
| `TypeState.C38_mem_protocol` | propext, Classical.choice, Quot.sound |
| `TypeState.C38_top_false` | propext |
| `TypeState.C38_callees_false` | propext |
| `TypeState.C38_kdf_false` | propext, Quot.sound |
| `TypeState.C38_kdf_compose_false` | propext |
| `TypeState.C38_heap_false` | propext, Quot.sound |
| `GLCA.C39_join_covers` | propext, Quot.sound |
| `GLCA.C39_join_precise` | propext, Quot.sound |
| `GLCA.C39_join_bound_partial` | propext, Quot.sound |
| `GLCA.C39_binop_covers` | propext, Quot.sound |
| `GLCA.C39_binop_precise` | propext, Quot.sound |
| `GLCA.C39_binop_bound` | propext, Quot.sound |
| `GLCA.C39_intop_partial` | propext, Classical.choice, Quot.sound |
| `GLCA.C39_binop_partial` | propext, Classical.choice, Quot.sound |
| `GLCA.C39_join_defined` | propext, Quot.sound |
| `GLCA.C39_binop_defined_partial` | propext, Quot.sound |
| `GLCA.C39_less` | propext, Quot.sound |
| `GLCA.C39_typecast_partial` | propext, Classical.choice, Quot.sound |
| `GLCA.C39_typecast_covers` | propext, Quot.sound |
| `GLCA.C39_unknown` | propext, Quot.sound |
| `GLCA.C39_strings` | propext, Quot.sound |
| `GLCA.C39_mixed` | propext, Quot.sound |
| `GLCA.C39_binary_edge_partial` | propext, Classical.choice, Quot.sound |
| `GLCA.C39_less_strict` | propext, Quot.sound |
| `GLCA.C39_sub_false` | propext, Quot.sound |
| `GLCA.C39_join_bound_false` | propext |
| `GLCA.C39_div_zero_false` | propext, Quot.sound |
| `GLCA.C39_trunc_false` | propext, Quot.sound |
| `GLCA.C39_ext_false` | propext, Quot.sound |
| `GLCA.C39_zext_false` | propext, Quot.sound |
| `GLCA.C39_configured_false` | propext, Quot.sound |
| `GLCA.C39_empty_false` | propext, Quot.sound |
| `XTaint.C40_idempotent` | propext |
| `XTaint.C40_bounds` | propext |
| `XTaint.C40_join_level` | propext, Quot.sound |
| `XTaint.C40_unsanitized` | propext, Quot.sound |
| `XTaint.C40_unsanitized_only` | propext, Quot.sound |
| `XTaint.C40_leak_kept` | propext, Quot.sound |
| `XTaint.C40_suppressed` | propext, Quot.sound |
| `XTaint.C40_chain` | propext, Quot.sound |
| `XTaint.C40_comm_partial` | propext |
| `XTaint.C40_assoc_partial` | propext, Quot.sound |
| `XTaint.C40_kill_monotone` | propext |
| `XTaint.C40_transfer_monotone_partial` | propext, Quot.sound |
| `XTaint.C40_functions_unsanitized` | propext |
| `XTaint.C40_kill_eq` | propext |
| `XTaint.C40_transfer_eq_partial` | propext |
| `XTaint.C40_compose_partial` | propext |
| `XTaint.C40_comm_false` | propext |
| `XTaint.C40_oscillates_false` | propext, Quot.sound |
| `XTaint.C40_assoc_false` | propext |
| `XTaint.C40_comm_switch_false` | propext |
| `XTaint.C40_transfer_top_false` | propext |
| `XTaint.C40_transfer_eq_false` | propext |
| `XTaint.C40_compose_false` | propext |
| `SpecialMember.C41_blocked` | propext, Quot.sound |
| `SpecialMember.C41_digits` | propext, Quot.sound |
| `SpecialMember.C41_result` | propext, Classical.choice, Quot.sound |
| `SpecialMember.C41_constructor_partial` | propext, Classical.choice, Quot.sound |
| `SpecialMember.C41_destructor_partial` | propext, Classical.choice, Quot.sound |
| `SpecialMember.C41_copy_partial` | propext, Classical.choice, Quot.sound |
| `SpecialMember.C41_move_partial` | propext, Classical.choice, Quot.sound |
| `SpecialMember.C41_long_false` | propext, Classical.choice, Quot.sound |
| `SpecialMember.C41_find` | propext, Quot.sound |
| `SpecialMember.C41_loop_ends` | propext, Classical.choice, Quot.sound |
| `SpecialMember.C41_found` | propext, Classical.choice, Quot.sound |
| `SpecialMember.C41_fuel` | propext, Quot.sound |
| `SpecialMember.C41_returns_partial` | propext, Classical.choice, Quot.sound |
| `SpecialMember.C41_deterministic` | propext |
| `SpecialMember.C41_mangled` | propext, Classical.choice, Quot.sound |
| `SpecialMember.C41_hang_false` | propext, Classical.choice, Quot.sound |
| `SpecialMember.C41_throw_false` | propext, Classical.choice, Quot.sound |
| `SpecialMember.C41_method_false` | propext, Classical.choice, Quot.sound |
| `CFG.C42_succs_partial` | propext, Classical.choice, Quot.sound |
| `CFG.C42_preds` | propext, Classical.choice, Quot.sound |
| `CFG.C42_inverse_partial` | propext, Classical.choice, Quot.sound |
| `CFG.C42_lazy` | propext, Quot.sound |
| `CFG.C42_succ_pred` | propext, Classical.choice, Quot.sound |
| `CFG.C42_edges` | propext, Classical.choice, Quot.sound |
| `CFG.C42_edges_step_partial` | propext, Classical.choice, Quot.sound |
| `CFG.C42_start` | propext, Quot.sound |
| `CFG.C42_branchTarget` | propext, Classical.choice, Quot.sound |
| `CFG.C42_declaration` | propext |
| `CFG.C42_fallThrough` | propext, Classical.choice, Quot.sound |
| `CFG.C42_false` | propext, Quot.sound |
| `CFG.C42_branchTarget_false` | propext, Quot.sound |
| `CFG.C42_start_false` | propext |
| `CFG.C42_exit_false` | propext |
| `CFG.C42_exit_partial` | propext, Quot.sound |
| `Handle.C43_safe` | propext, Classical.choice, Quot.sound |
| `Handle.C43_exact` | propext, Classical.choice, Quot.sound |
| `Handle.C43_reachable` | propext, Classical.choice, Quot.sound |
| `Handle.C43_no_leak` | propext, Classical.choice, Quot.sound |
| `Handle.C43_cache` | propext, Classical.choice, Quot.sound |
| `Handle.C43_move_cache_false` | propext |
| `TH.C44_terminates` | propext, Classical.choice, Quot.sound |
| `TH.C44_subtypes` | propext, Classical.choice, Quot.sound |
| `TH.C44_isSubType` | propext, Classical.choice, Quot.sound |
| `TH.C44_super` | propext, Classical.choice, Quot.sound |
| `TH.C44_order` | propext, Classical.choice, Quot.sound |
| `TH.C44_vtables` | propext, Classical.choice, Quot.sound |
| `TH.C44_struct_subtypes_partial` | propext, Classical.choice, Quot.sound |
| `TH.C44_struct_roundtrip_partial` | propext, Classical.choice, Quot.sound |
| `TH.C44_lookup` | propext, Quot.sound |
| `TH.C44_roundtrip_partial` | propext, Classical.choice, Quot.sound |
| `TH.C44_struct_opaque_false` | propext, Classical.choice, Quot.sound |
| `TH.C44_struct_clash_false` | propext, Classical.choice, Quot.sound |
| `TH.C44_struct_load_false` | none |
| `TH.C44_roundtrip_names_false` | propext, Classical.choice, Quot.sound |
| `TH.C44_roundtrip_null_false` | propext, Classical.choice, Quot.sound |
| `CG.C45_terminates` | propext, Classical.choice, Quot.sound |
| `CG.C45_exact_partial` | propext, Classical.choice, Quot.sound |
| `CG.C45_covers_partial` | propext, Classical.choice, Quot.sound |
| `CG.C45_vertices_partial` | propext, Classical.choice, Quot.sound |
| `CG.C45_order_partial` | propext, Classical.choice, Quot.sound |
| `CG.C45_unreported` | propext |
| `CG.C45_same_size` | propext |
| `CG.C45_unsound` | propext, Quot.sound |
| `Util.C46_removes` | propext, Classical.choice, Quot.sound |
| `Util.C46_kept` | propext, Quot.sound |
| `Util.C46_end` | propext |
| `Util.C46_forward_false` | propext, Quot.sound |
| `CFG.C47_mirror_partial` | propext, Classical.choice, Quot.sound |
| `CFG.C47_ret` | propext, Quot.sound |
| `CFG.C47_edges` | propext, Classical.choice, Quot.sound |
| `CFG.C47_false` | propext |
| `CFG.C47_paths_partial` | propext, Classical.choice, Quot.sound |
| `CFG.C47_exit` | propext, Classical.choice, Quot.sound |
| `CFG.C47_start_partial` | propext, Quot.sound |
| `CFG.C47_branchTarget` | propext, Quot.sound |
| `CFG.C47_branchTarget_false` | propext |
| `StringID.C48_same_object` | propext |
| `StringID.C48_strict_weak_order` | propext, Classical.choice, Quot.sound |
| `StringID.C48_numbers_first` | propext |
| `StringID.C48_by_value` | propext |
| `StringID.C48_strtol_number` | propext, Quot.sound |
| `StringID.C48_saturates` | propext, Quot.sound |
| `StringID.C48_strtol_name` | propext |
| `StringID.C48_distinct_partial` | propext, Quot.sound |
| `StringID.C48_overflow_false` | propext, Quot.sound |
| `StringID.C48_nonnumeric` | propext |
| `StringID.C48_names_false` | propext, Classical.choice, Quot.sound |
| `StringID.C48_suffix_false` | propext, Classical.choice, Quot.sound |
| `StringID.C48_node_order` | propext, Classical.choice, Quot.sound |
| `StringID.C48_edge_order` | propext, Classical.choice, Quot.sound |
| `LCA.Prog.C49_sound_partial` | propext, Classical.choice, Quot.sound |
| `LCA.Prog.C49_reached` | propext, Classical.choice, Quot.sound |
| `LCA.Prog.C49_terminates` | propext, Classical.choice, Quot.sound |
| `LCA.Prog.C49_total_partial` | propext, Classical.choice, Quot.sound |
| `LCA.Prog.C49_untracked_false` | propext, Classical.choice, Quot.sound |
| `LCA.Prog.C49_extract_false` | propext, Classical.choice, Quot.sound |
| `LCA.Prog.C49_saturating_false` | propext, Classical.choice, Quot.sound |
| `LCA.Prog.C49_mixed_callees_false` | propext, Classical.choice, Quot.sound |
| `LCA.Prog.C49_external_false` | propext, Classical.choice, Quot.sound |
| `FlowFn.C50_alongside` | propext |
| `FlowFn.C50_callee` | propext, Classical.choice, Quot.sound |
| `FlowFn.C50_caller_partial` | propext, Quot.sound |
| `FlowFn.C50_zero_false` | propext, Classical.choice, Quot.sound |
| `FlowFn.C50_store` | propext |
| `FlowFn.C50_store_value` | propext |
| `FlowFn.C50_roundtrip` | propext, Classical.choice, Quot.sound |
| `Taint.C51_operands_partial` | propext, Classical.choice, Quot.sound |
| `Taint.C51_complete_partial` | propext, Classical.choice, Quot.sound |
| `Taint.C51_complete_auto_partial` | propext, Classical.choice, Quot.sound |
| `Taint.C51_terminates` | propext, Classical.choice, Quot.sound |
| `Taint.C51_total_partial` | propext, Classical.choice, Quot.sound |
| `Taint.C51_no_source` | propext, Classical.choice, Quot.sound |
| `Taint.C51_not_entered` | propext, Classical.choice, Quot.sound |
| `Taint.C51_arith_false` | propext, Classical.choice, Quot.sound |
| `Taint.C51_one_use_false` | propext, Classical.choice, Quot.sound |
| `Taint.C51_sret_false` | propext, Classical.choice, Quot.sound |
| `Taint.C51_library_alias_false` | propext, Classical.choice, Quot.sound |
| `Taint.C51_shadowed_library_false` | propext, Classical.choice, Quot.sound |
| `Taint.C51_sanitizer_false` | propext, Classical.choice, Quot.sound |
| `Taint.C51_later_alias_false` | propext, Classical.choice, Quot.sound |
| `ESG.C52_total` | propext, Classical.choice, Quot.sound |
| `ESG.C52_registered` | propext, Classical.choice, Quot.sound |
| `ESG.C52_value_partial` | propext, Classical.choice, Quot.sound |
| `ESG.C52_links_sound_partial` | propext, Classical.choice, Quot.sound |
| `ESG.C52_ends_partial` | propext, Classical.choice, Quot.sound |
| `ESG.C52_links_complete_partial` | propext, Classical.choice, Quot.sound |
| `ESG.C52_path_partial` | propext, Classical.choice, Quot.sound |
| `ESG.C52_numNeighbors_false` | propext, Classical.choice, Quot.sound |
| `ESG.C52_seed_lost_false` | propext, Quot.sound |
| `ESG.C52_merged_spurious_false` | propext, Quot.sound |
| `ESG.C52_cycle_false` | propext, Quot.sound |
| `ESG.C52_two_calls_false` | propext, Quot.sound |
| `ESG.C52_seed_value_false` | propext, Quot.sound |
| `ESG.C52_seed_unregistered_false` | propext, Quot.sound |
| `ESG.C52_assert_false` | propext, Quot.sound |
| `Dag.C53_sound` | propext, Classical.choice, Quot.sound |
| `Dag.C53_acyclic` | propext, Classical.choice, Quot.sound |
| `Dag.C53_terminates` | propext, Classical.choice, Quot.sound |
| `Dag.C53_loops_false` | propext, Quot.sound |
| `Dag.C53_nonempty` | propext, Classical.choice, Quot.sound |
| `Dag.C53_complete_partial` | propext, Classical.choice, Quot.sound |
| `Dag.C53_invalid_unchanged` | propext, Classical.choice, Quot.sound |
| `Dag.C53_assertIsDAG` | propext, Classical.choice, Quot.sound |
| `Dag.C53_reverseGraph` | propext, Classical.choice, Quot.sound |
| `Dag.C53_recorded_partial` | propext, Classical.choice, Quot.sound |
| `Dag.C53_endless_false` | propext, Classical.choice, Quot.sound |
| `Dag.C53_break_lost_false` | propext, Quot.sound |
| `Dag.C53_second_lost_false` | propext, Quot.sound |
| `Dag.C53_end_hidden_false` | propext, Quot.sound |
| `Dag.C53_priority_false` | propext, Quot.sound |
| `PathFilter.C54_direct` | propext |
| `PathFilter.C54_callstack` | propext, Quot.sound |
| `PathFilter.C54_restore` | propext, Quot.sound |
| `PathFilter.C54_suitable` | propext, Classical.choice, Quot.sound |
| `PathFilter.C54_filter` | propext, Classical.choice, Quot.sound |
| `PathFilter.C54_paths` | propext, Classical.choice, Quot.sound |
| `PathFilter.C54_query_partial` | propext, Classical.choice, Quot.sound |
| `PathFilter.C54_final` | propext, Quot.sound |
| `PathFilter.C54_return_false` | propext, Quot.sound |
| `PathFilter.C54_threshold_false` | propext, Quot.sound |
| `PathFilter.C54_invoke_false` | propext, Quot.sound |
| `PathConstr.C55_cache` | propext, Classical.choice, Quot.sound |
| `PathConstr.C55_steps` | propext, Classical.choice, Quot.sound |
| `PathConstr.C55_none` | propext, Classical.choice, Quot.sound |
| `PathConstr.C55_exact_partial` | propext, Classical.choice, Quot.sound |
| `PathConstr.C55_trunc_partial` | propext, Classical.choice, Quot.sound |
| `PathConstr.C55_phi` | propext, Classical.choice, Quot.sound |
| `PathConstr.C55_variables` | propext, Classical.choice, Quot.sound |
| `PathConstr.C55_sort` | propext, Classical.choice, Quot.sound |
| `PathConstr.C55_casts` | propext, Classical.choice, Quot.sound |
| `PathConstr.C55_path_partial` | propext, Classical.choice, Quot.sound |
| `PathConstr.C55_reported_partial` | propext, Classical.choice, Quot.sound |
| `PathConstr.C55_base` | propext, Classical.choice, Quot.sound |
| `PathConstr.C55_shift` | propext, Quot.sound |
| `PathConstr.C55_trunc_false` | propext, Quot.sound |
| `PathConstr.C55_wrap_false` | propext, Quot.sound |
| `PathConstr.C55_sdiv_false` | propext, Quot.sound |
| `PathConstr.C55_srem_false` | propext, Quot.sound |
| `PathConstr.C55_unsigned_false` | propext, Quot.sound |
| `PathConstr.C55_zext_false` | propext, Quot.sound |
| `PathConstr.C55_same_target_false` | propext, Quot.sound |
| `PathConstr.C55_deref_false` | propext, Quot.sound |
| `PathConstr.C55_changed_false` | propext, Quot.sound |
| `PathConstr.C55_unnamed_false` | propext, Quot.sound |
| `PathConstr.C55_call_false` | propext, Quot.sound |
| `PathConstr.C55_fatal_false` | propext |
| `PathConstr.C55_endless_false` | propext |
| `PathConstr.C55_debug_false` | propext |
| `TypeGraph.C56_cached` | propext, Classical.choice, Quot.sound |
| `TypeGraph.C56_types` | propext, Classical.choice, Quot.sound |
| `TypeGraph.C56_order` | propext, Classical.choice, Quot.sound |
| `TypeGraph.C56_new` | propext, Classical.choice, Quot.sound |
| `TypeGraph.C56_lazy` | propext, Classical.choice, Quot.sound |
| `TypeGraph.C56_lazy_types` | propext, Classical.choice, Quot.sound |
| `TypeGraph.C56_agree` | propext, Classical.choice, Quot.sound |
| `TypeGraph.C56_aggregate_partial` | propext, Classical.choice, Quot.sound |
| `TypeGraph.C56_literal_false` | propext, Quot.sound |
| `TypeGraph.C56_poison_false` | propext, Quot.sound |
| `TypeGraph.C56_unnamed_false` | propext, Quot.sound |
| `TypeGraph.C56_lazy_literal_false` | propext, Quot.sound |
| `TypeGraph.C56_aggregate_false` | propext, Quot.sound |
| `Resolver.C57_consistent` | propext, Classical.choice, Quot.sound |
| `Resolver.C57_tables` | propext, Classical.choice, Quot.sound |
| `Resolver.C57_virtual` | propext, Classical.choice, Quot.sound |
| `Resolver.C57_cha` | propext, Classical.choice, Quot.sound |
| `Resolver.C57_cha_sound_partial` | propext, Classical.choice, Quot.sound |
| `Resolver.C57_allocated` | propext, Classical.choice, Quot.sound |
| `Resolver.C57_rta` | propext, Classical.choice, Quot.sound |
| `Resolver.C57_rta_le_cha` | propext, Quot.sound |
| `Resolver.C57_rta_sound_partial` | propext, Classical.choice, Quot.sound |
| `Resolver.C57_dta_link` | propext, Classical.choice, Quot.sound |
| `Resolver.C57_dta` | propext, Classical.choice, Quot.sound |
| `Resolver.C57_pointer` | propext, Classical.choice, Quot.sound |
| `Resolver.C57_otf_virtual` | propext, Classical.choice, Quot.sound |
| `Resolver.C57_otf_pointer` | propext, Classical.choice, Quot.sound |
| `Resolver.C57_pairs` | propext, Quot.sound |
| `Resolver.C57_secondary_false` | propext, Classical.choice, Quot.sound |
| `Resolver.C57_vbase_false` | propext, Classical.choice, Quot.sound |
| `Resolver.C57_direct_false` | propext, Classical.choice, Quot.sound |
| `Resolver.C57_covariant_false` | propext, Classical.choice, Quot.sound |
| `Resolver.C57_template_false` | propext, Classical.choice, Quot.sound |
| `Resolver.C57_struct_false` | propext, Classical.choice, Quot.sound |
| `Resolver.C57_unprototyped_false` | propext |
| `Resolver.C57_rta_false` | propext, Classical.choice, Quot.sound |
| `Resolver.C57_alloc_undefined` | propext |
| `Resolver.C57_dta_ctor_false` | propext, Classical.choice, Quot.sound |
| `Resolver.C57_constructor_false` | propext, Classical.choice, Quot.sound |
| `Resolver.C57_otf_false` | propext, Classical.choice, Quot.sound |
| `Uninit.C58_store` | propext, Classical.choice, Quot.sound |
| `Uninit.C58_alloca` | propext, Classical.choice, Quot.sound |
| `Uninit.C58_use` | propext, Classical.choice, Quot.sound |
| `Uninit.C58_call` | propext, Classical.choice, Quot.sound |
| `Uninit.C58_ret` | propext, Quot.sound |
| `Uninit.C58_alongside` | propext |
| `Uninit.C58_results` | propext, Classical.choice, Quot.sound |
| `Uninit.C58_reported` | propext, Classical.choice, Quot.sound |
| `Uninit.C58_operands_partial` | propext, Classical.choice, Quot.sound |
| `Uninit.C58_complete_partial` | propext, Classical.choice, Quot.sound |
| `Uninit.C58_complete_auto_partial` | propext, Classical.choice, Quot.sound |
| `Uninit.C58_plain_partial` | propext, Classical.choice, Quot.sound |
| `Uninit.C58_terminates` | propext, Classical.choice, Quot.sound |
| `Uninit.C58_total_partial` | propext, Classical.choice, Quot.sound |
| `Uninit.C58_no_locals` | propext, Classical.choice, Quot.sound |
| `Uninit.C58_aggregate` | propext, Classical.choice, Quot.sound |
| `Uninit.C58_aggregate_split` | propext, Classical.choice, Quot.sound |
| `Uninit.C58_struct_false` | propext, Classical.choice, Quot.sound |
| `Uninit.C58_indirect_false` | propext, Classical.choice, Quot.sound |
| `Uninit.C58_callbr_false` | propext, Classical.choice, Quot.sound |
| `Uninit.C58_vararg_false` | propext, Classical.choice, Quot.sound |
| `Uninit.C58_lifetime_false` | propext, Classical.choice, Quot.sound |
| `Uninit.C58_undef_arg_false` | propext, Classical.choice, Quot.sound |
| `Uninit.C58_undef_ret_false` | propext, Classical.choice, Quot.sound |
| `Uninit.C58_alias_false` | propext, Classical.choice, Quot.sound |
| `Uninit.C58_global_false` | propext, Classical.choice, Quot.sound |
| `Uninit.C58_masked_false` | propext, Classical.choice, Quot.sound |
| `Uninit.C58_address_false` | propext, Classical.choice, Quot.sound |
| `Uninit.C58_aggregate_false` | propext |
| `PathFilter.C59_reverse` | propext, Classical.choice, Quot.sound |
| `PathFilter.C59_limit` | propext, Classical.choice, Quot.sound |
| `PathFilter.C59_minimize` | propext, Classical.choice, Quot.sound |
| `PathFilter.C59_total` | propext, Classical.choice, Quot.sound |
| `PathFilter.C59_query_partial` | propext, Classical.choice, Quot.sound |
| `PathFilter.C59_length_false` | propext, Quot.sound |
| `DB.C60_ids` | propext, Quot.sound |
| `DB.C60_stable` | propext, Quot.sound |
| `DB.C60_roundtrip` | propext, Quot.sound |
| `DB.C60_arguments_partial` | propext, Quot.sound |
| `DB.C60_dotted` | propext, Classical.choice, Quot.sound |
| `DB.C60_dotted_false` | propext, Classical.choice, Quot.sound |
| `DB.C60_unambiguous` | propext, Quot.sound |
| `DB.C60_unprocessed` | propext, Classical.choice, Quot.sound |
| `DB.C60_trailing` | propext, Quot.sound |
| `DB.C60_unknown` | propext, Quot.sound |
| `DB.C61_reload_partial` | propext, Classical.choice, Quot.sound |
| `DB.C61_resume` | propext, Quot.sound |
| `DB.C61_functions_false` | propext, Classical.choice, Quot.sound |
| `DB.C61_dotted_false` | propext, Classical.choice, Quot.sound |
| `DB.C61_empty_false` | propext |
| `DB.C61_foreign` | propext, Classical.choice, Quot.sound |
| `DB.C62_lifetime_partial` | propext, Quot.sound |
| `DB.C62_update_get` | propext, Quot.sound |
| `DB.C62_update_false` | propext |
| `DB.C62_history_false` | propext |
| `Globals.C63_runs_partial` | propext, Classical.choice, Quot.sound |
| `Globals.C63_stale` | propext, Classical.choice, Quot.sound |
| `Globals.C63_uncalled` | propext, Classical.choice, Quot.sound |
| `Globals.C63_envp_false` | propext, Classical.choice, Quot.sound |
| `Globals.C63_exit_false` | propext, Classical.choice, Quot.sound |
| `Globals.C63_generated` | propext, Classical.choice, Quot.sound |
| `Globals.C63_names` | propext, Classical.choice, Quot.sound |
| `Globals.C63_generated_false` | propext, Classical.choice, Quot.sound |
| `Globals.C63_local_false` | propext, Classical.choice, Quot.sound |
| `Globals.C63_gep_false` | propext, Classical.choice, Quot.sound |
| `Globals.C63_database` | propext, Classical.choice, Quot.sound |
| `Globals.C63_twice_false` | propext, Classical.choice, Quot.sound |
| `Globals.C63_entries` | propext, Classical.choice, Quot.sound |
| `TypeState.Prog.C64_names` | propext, Classical.choice, Quot.sound |
| `TypeState.Prog.C64_matching` | propext, Classical.choice, Quot.sound |
| `TypeState.Prog.C64_relevant` | propext, Classical.choice, Quot.sound |
| `TypeState.Prog.C64_normal` | propext, Classical.choice, Quot.sound |
| `TypeState.Prog.C64_call` | propext, Classical.choice, Quot.sound |
| `TypeState.Prog.C64_ret_partial` | propext, Classical.choice, Quot.sound |
| `TypeState.Prog.C64_over` | propext, Classical.choice, Quot.sound |
| `TypeState.Prog.C64_edges` | propext, Classical.choice, Quot.sound |
| `TypeState.Prog.C64_cached` | propext, Classical.choice, Quot.sound |
| `TypeState.Prog.C64_caches_partial` | propext, Classical.choice, Quot.sound |
| `TypeState.Prog.C64_sound_partial` | propext, Classical.choice, Quot.sound |
| `TypeState.Prog.C64_reached` | propext, Classical.choice, Quot.sound |
| `TypeState.Prog.C64_report_partial` | propext, Classical.choice, Quot.sound |
| `TypeState.Prog.C64_reported` | propext, Quot.sound |
| `TypeState.Prog.C64_terminates` | propext, Classical.choice, Quot.sound |
| `TypeState.Prog.C64_analysis_partial` | propext, Classical.choice, Quot.sound |
| `TypeState.Prog.C64_caches_false` | propext, Classical.choice, Quot.sound |
| `TypeState.Prog.C64_may_alias_false` | propext, Classical.choice, Quot.sound |
| `TypeState.Prog.C64_report_false` | propext, Classical.choice, Quot.sound |
| `TypeState.Prog.C64_second_argument_false` | propext, Classical.choice, Quot.sound |
| `TypeState.Prog.C64_global_false` | propext, Classical.choice, Quot.sound |
| `TypeState.Prog.C64_temporary_false` | propext, Classical.choice, Quot.sound |
| `TypeState.Prog.C64_opaque_false` | propext, Classical.choice, Quot.sound |
| `TypeState.Prog.C64_vararg_false` | propext, Classical.choice, Quot.sound |
| `TypeState.Prog.C64_no_callee_false` | propext, Classical.choice, Quot.sound |
| `AML.C65_defined` | propext, Classical.choice, Quot.sound |
| `AML.C65_canonical` | propext, Classical.choice, Quot.sound |
| `AML.C65_bounded` | propext, Classical.choice, Quot.sound |
| `AML.C65_repeat` | propext, Classical.choice, Quot.sound |
| `AML.C65_path` | propext, Quot.sound |
| `AML.C65_create` | propext, Classical.choice, Quot.sound |
| `AML.C65_offset` | propext, Classical.choice, Quot.sound |
| `AML.C65_indirection` | propext, Classical.choice, Quot.sound |
| `AML.C65_indirection_none` | propext, Classical.choice, Quot.sound |
| `AML.C65_offsets` | propext, Classical.choice, Quot.sound |
| `AML.C65_equivalent` | propext, Quot.sound |
| `AML.C65_proper_prefix` | propext, Quot.sound |
| `AML.C65_equivalent_pa` | propext, Quot.sound |
| `AML.C65_overlap` | propext, Classical.choice, Quot.sound |
| `AML.C65_cell` | propext, Quot.sound |
| `AML.C65_param` | propext, Quot.sound |
| `AML.C65_store_partial` | propext, Classical.choice, Quot.sound |
| `AML.C65_ret_partial` | propext, Classical.choice, Quot.sound |
| `AML.C65_transfer_to_partial` | propext, Classical.choice, Quot.sound |
| `AML.C65_transfer_from` | propext, Classical.choice, Quot.sound |
| `AML.C65_must_alias_partial` | propext, Classical.choice, Quot.sound |
| `AML.C65_map_back_partial` | propext, Classical.choice, Quot.sound |
| `AML.C65_map_back_only` | propext, Quot.sound |
| `AML.C65_lifetime_false` | propext |
| `AML.C65_index_false` | propext |
| `AML.C65_index_kill_false` | propext, Classical.choice, Quot.sound |
| `AML.C65_field_pointer_false` | propext |
| `AML.C65_buffer_false` | propext |
| `AML.C65_field_argument_false` | propext, Quot.sound |
| `AML.C65_last_offset_false` | propext |
| `AML.C65_field_return_false` | propext |
| `AML.C65_back_false` | propext |
| `AML.C65_alloc_partial` | propext, Classical.choice, Quot.sound |
| `AML.C65_reserved` | propext, Quot.sound |
| `AML.C65_alloc_false` | propext |
| `XFlow.C66_answers` | propext, Classical.choice, Quot.sound |
| `XFlow.C66_store` | propext, Quot.sound |
| `XFlow.C66_config` | propext, Quot.sound |
| `XFlow.C66_normal` | propext, Quot.sound |
| `XFlow.C66_call` | propext, Classical.choice, Quot.sound |
| `XFlow.C66_ret` | propext, Quot.sound |
| `XFlow.C66_over` | propext, Quot.sound |
| `XFlow.C66_summary` | propext |
| `XFlow.C66_normal_edge` | propext, Classical.choice, Quot.sound |
| `XFlow.C66_call_edge` | propext, Quot.sound |
| `XFlow.C66_call_edge_id` | propext, Quot.sound |
| `XFlow.C66_ret_edge` | propext, Quot.sound |
| `XFlow.C66_over_edge` | propext, Classical.choice, Quot.sound |
| `XFlow.C66_summary_edge` | propext, Classical.choice, Quot.sound |
| `XFlow.C66_kept` | propext, Quot.sound |
| `XFlow.C66_cause` | propext, Classical.choice, Quot.sound |
| `XFlow.C66_clean` | propext, Classical.choice, Quot.sound |
| `XFlow.C66_weak` | propext, Classical.choice, Quot.sound |
| `XFlow.C66_insert` | propext, Quot.sound |
| `XFlow.C66_post` | propext, Quot.sound |
| `XFlow.C66_reported` | propext, Classical.choice, Quot.sound |
| `XFlow.C66_load` | propext |
| `XFlow.C66_load_false` | propext |
| `XFlow.C66_declaration_false` | propext, Quot.sound |
| `XFlow.C66_post_false` | propext, Quot.sound |
| `XFlow.C66_arith_false` | propext, Quot.sound |
| `XFlow.C66_sanitizer_false` | propext, Quot.sound |
| `XFlow.C66_printed_false` | propext, Quot.sound |
| `XFlow.C66_no_callee_false` | propext, Quot.sound |
| `Const.C67_results` | propext, Classical.choice, Quot.sound |
| `Const.C67_answer` | propext, Quot.sound |
| `Const.C67_two` | propext, Quot.sound |
| `Const.C67_again` | propext, Quot.sound |
| `Const.C67_normal` | propext, Quot.sound |
| `Const.C67_other` | propext |
| `Const.C67_past` | propext, Quot.sound |
| `Const.C67_call` | propext, Classical.choice, Quot.sound |
| `Const.C67_ret` | propext, Quot.sound |
| `Const.C67_zero` | propext, Classical.choice, Quot.sound |
| `Const.C67_generated` | propext, Classical.choice, Quot.sound |
| `Const.C67_mutable_partial` | propext, Classical.choice, Quot.sound |
| `Const.C67_origin` | propext, Classical.choice, Quot.sound |
| `Const.C67_separate` | propext, Classical.choice, Quot.sound |
| `Const.C67_report_partial` | propext, Quot.sound |
| `Const.C67_report_false` | propext, Classical.choice, Quot.sound |
| `Const.C67_loop_false` | propext, Classical.choice, Quot.sound |
| `Const.C67_order_false` | propext, Classical.choice, Quot.sound |
| `C68_results` | propext, Quot.sound |
| `C68_terminates` | propext, Classical.choice, Quot.sound |
| `C68_paths` | propext, Quot.sound |
| `C68_uninit_partial` | propext, Quot.sound |
| `C68_acyclic_partial` | propext, Classical.choice, Quot.sound |
| `C68_cycle` | propext, Quot.sound |
| `C68_loop_false` | propext, Quot.sound |
| `C68_store_false` | propext, Quot.sound |
| `C68_undef_false` | propext, Quot.sound |
| `C68_some_path_false` | propext, Quot.sound |
| `C69_results` | propext, Quot.sound |
| `C69_sound_partial` | propext, Classical.choice, Quot.sound |
| `C69_cycle` | propext, Quot.sound |
| `C69_alloca` | propext, Quot.sound |
| `C69_load` | propext, Quot.sound |
| `C69_store` | propext, Quot.sound |
| `C69_bin` | propext, Classical.choice, Quot.sound |
| `C69_other` | propext, Quot.sound |
| `C69_store_false` | propext, Quot.sound |
| `C69_alias_false` | propext, Quot.sound |
| `C69_call_false` | propext, Quot.sound |
| `C69_width_false` | propext, Quot.sound |
| `C69_unsigned_false` | propext, Quot.sound |
| `C69_loop_false` | propext, Quot.sound |
| `C69_bottom_false` | propext, Quot.sound |
| `C70_read` | propext, Classical.choice, Quot.sound |
| `C70_category` | propext, Classical.choice, Quot.sound |
| `C70_required_false` | propext, Classical.choice, Quot.sound |
| `C70_index_false` | propext, Classical.choice, Quot.sound |
| `C70_sinks` | propext, Classical.choice, Quot.sound |
| `C70_defined` | propext, Classical.choice, Quot.sound |
| `C70_marks` | propext, Classical.choice, Quot.sound |
| `C70_exact_partial` | propext, Classical.choice, Quot.sound |
| `C70_overload_false` | propext, Classical.choice, Quot.sound |
| `C70_null_false` | propext, Classical.choice, Quot.sound |
| `C70_user_false` | propext, Classical.choice, Quot.sound |
| `C70_struct_false` | propext, Classical.choice, Quot.sound |
| `C70_mix_false` | propext, Classical.choice, Quot.sound |
| `C71_defined` | propext, Classical.choice, Quot.sound |
| `C71_marks` | propext, Classical.choice, Quot.sound |
| `C71_local_false` | propext, Classical.choice, Quot.sound |
| `C71_global_false` | propext, Classical.choice, Quot.sound |
| `C71_prefix_false` | propext, Classical.choice, Quot.sound |
| `C72_generated_call` | propext, Classical.choice, Quot.sound |
| `C72_generated_other` | propext, Classical.choice, Quot.sound |
| `C72_leaks` | propext, Classical.choice, Quot.sound |
| `C72_defined` | propext, Quot.sound |
| `C72_asks` | propext, Quot.sound |
| `C72_generates_partial` | propext, Classical.choice, Quot.sound |
| `C72_generates_false` | propext, Quot.sound |
| `C72_agree` | propext, Quot.sound |
| `C72_callback_false` | propext, Quot.sound |
| `C72_arity_false` | propext, Quot.sound |
| `C72_category` | propext, Quot.sound |
| `C72_seeds` | propext, Quot.sound |
| `SecureHeap.C73_exact` | propext, Classical.choice, Quot.sound |
| `SecureHeap.C73_sound` | propext, Classical.choice, Quot.sound |
| `SecureHeap.C73_order` | propext, Classical.choice, Quot.sound |
| `SecureHeap.C73_terminates` | propext, Quot.sound |
| `SecureHeap.C73_reinit_false` | propext, Classical.choice, Quot.sound |
| `SecureHeap.C73_paths_false` | propext, Classical.choice, Quot.sound |
| `SecureHeap.C73_indirect_false` | propext, Quot.sound |
| `SecureHeap.C73_noreturn_false` | propext, Classical.choice, Quot.sound |
| `IIA.C74_defined` | propext, Quot.sound |
| `IIA.C74_precise` | propext, Classical.choice, Quot.sound |
| `IIA.C74_exact` | propext, Classical.choice, Quot.sound |
| `IIA.C74_sound` | propext, Classical.choice, Quot.sound |
| `IIA.C74_order` | propext, Classical.choice, Quot.sound |
| `IIA.C74_terminates` | propext, Classical.choice, Quot.sound |
| `IIA.C74_opaque_false` | propext, Classical.choice, Quot.sound |
| `IIA.C74_constop_false` | propext, Classical.choice, Quot.sound |
| `IIA.C74_alias_false` | propext, Classical.choice, Quot.sound |
| `IIA.C74_function_false` | propext, Classical.choice, Quot.sound |
| `IIA.C74_constarg_false` | propext, Classical.choice, Quot.sound |
| `IIA.C74_sret_false` | propext, Quot.sound |
| `IIA.C74_meet_false` | propext, Classical.choice, Quot.sound |
| `IIA.C74_mixed_false` | propext, Classical.choice, Quot.sound |
| `IIA.C74_unresolved_false` | propext, Classical.choice, Quot.sound |
| `Hexa.C75_get` | propext, Classical.choice, Quot.sound |
| `Hexa.C75_sxo_partial` | propext, Classical.choice, Quot.sound |
| `Hexa.C75_sxo_first` | propext, Classical.choice, Quot.sound |
| `Hexa.C75_sxo_false` | propext |
| `Hexa.C75_sxo_spurious_false` | propext |
| `Hexa.C75_ops_false` | propext |
| `Hexa.C75_put_twice` | propext, Classical.choice, Quot.sound |
| `CFLAnders.C76_reach` | propext, Quot.sound |
| `CFLAnders.C76_symm` | propext, Quot.sound |
| `CFLAnders.C76_states` | propext, Quot.sound |
| `CFLAnders.C76_attr` | propext, Classical.choice, Quot.sound |
| `CFLAnders.C76_terminates` | propext, Classical.choice, Quot.sound |
| `CFLAnders.C76_order` | propext, Classical.choice, Quot.sound |
| `CFLAnders.C76_alias_symm` | propext, Quot.sound |
| `CFLAnders.C76_states_symm_false` | propext, Quot.sound |
| `CFLAnders.C77_sound_partial` | propext, Classical.choice, Quot.sound |
| `CFLAnders.C77_readonly_false` | propext, Classical.choice, Quot.sound |
| `CFLAnders.C77_noalias_false` | propext, Classical.choice, Quot.sound |
| `CFLAnders.C77_ptrtoint_false` | propext, Classical.choice, Quot.sound |
| `CFLAnders.C77_cmpxchg_false` | propext, Classical.choice, Quot.sound |
| `CFLAnders.C77_inttoptr_false` | propext |
| `Stratified.C78_total` | propext, Classical.choice, Quot.sound |
| `Stratified.C78_values` | propext, Classical.choice, Quot.sound |
| `Stratified.C78_with` | propext, Classical.choice, Quot.sound |
| `Stratified.C78_below` | propext, Classical.choice, Quot.sound |
| `Stratified.C78_above` | propext, Classical.choice, Quot.sound |
| `Stratified.C78_chains` | propext, Classical.choice, Quot.sound |
| `Stratified.C78_labels` | propext, Classical.choice, Quot.sound |
| `Stratified.C78_least` | propext, Classical.choice, Quot.sound |
| `Stratified.C78_congr_partial` | propext, Classical.choice, Quot.sound |
| `Stratified.C78_congr_false` | propext, Quot.sound |
| `Stratified.C78_order_false` | propext, Quot.sound |
| `Stratified.C78_attrs` | propext, Classical.choice, Quot.sound |
| `Stratified.C78_compress` | propext, Classical.choice, Quot.sound |
| `CFLSteens.C79_total` | propext, Classical.choice, Quot.sound |
| `CFLSteens.C79_least` | propext, Classical.choice, Quot.sound |
| `CFLSteens.C79_va_partial` | propext, Classical.choice, Quot.sound |
| `CFLSteens.C79_over_partial` | propext, Classical.choice, Quot.sound |
| `CFLSteens.C79_sound_partial` | propext, Classical.choice, Quot.sound |
| `CFLSteens.C79_same_partial` | propext, Classical.choice, Quot.sound |
| `CFLSteens.C79_attrs_partial` | propext, Classical.choice, Quot.sound |
| `CFLSteens.C79_order_partial` | propext, Classical.choice, Quot.sound |
| `CFLSteens.C79_cycle_false` | propext, Classical.choice, Quot.sound |
| `CFLSteens.C79_order_false` | propext, Classical.choice, Quot.sound |
| `AliasGraph.C80_total_partial` | propext, Classical.choice, Quot.sound |
| `AliasGraph.C80_sites_partial` | propext, Classical.choice, Quot.sound |
| `AliasGraph.C80_order_partial` | propext, Classical.choice, Quot.sound |
| `AliasGraph.C80_introduced_partial` | propext, Classical.choice, Quot.sound |
| `AliasGraph.C80_vertices_partial` | propext, Classical.choice, Quot.sound |
| `AliasGraph.C80_merge_own_partial` | propext, Classical.choice, Quot.sound |
| `AliasGraph.C80_merge_other_partial` | propext, Classical.choice, Quot.sound |
| `AliasGraph.C80_alias_false` | propext, Quot.sound |
| `AliasGraph.C80_global_false` | propext, Quot.sound |
| `AliasGraph.C80_label_false` | propext, Quot.sound |
| `AliasGraph.C80_default_false` | propext, Quot.sound |
| `AliasGraph.C80_order_false` | propext, Quot.sound |
| `AliasGraph.C80_merge_false` | propext, Quot.sound |
| `CFG.C81_dot_partial` | propext, Classical.choice, Quot.sound |
| `CFG.C81_json_partial` | propext, Classical.choice, Quot.sound |
| `CFG.C81_sci_partial` | propext, Classical.choice, Quot.sound |
| `CFG.C81_agree_partial` | propext, Classical.choice, Quot.sound |
| `CFG.C81_nodes` | propext, Classical.choice, Quot.sound |
| `CFG.C81_closed_partial` | propext, Classical.choice, Quot.sound |
| `CFG.C81_callbr_false` | propext, Quot.sound |
| `CFG.C81_json_false` | propext, Quot.sound |
| `CFG.C81_sci_false` | propext, Quot.sound |
| `CFG.C81_switch_false` | propext |
| `CFG.C81_unwind_false` | propext, Quot.sound |
| `MaybeUnique.C82_safe` | propext, Classical.choice, Quot.sound |
| `MaybeUnique.C82_owner` | propext, Classical.choice, Quot.sound |
| `MaybeUnique.C82_leak` | propext, Classical.choice, Quot.sound |
| `MaybeUnique.C82_get` | propext, Quot.sound |
| `MaybeUnique.C82_assign_false` | propext, Quot.sound |
| `MaybeUnique.C82_release_false` | propext, Quot.sound |
| `InterTaint.C83_flows` | propext, Classical.choice, Quot.sound |
| `InterTaint.C83_config` | propext, Classical.choice, Quot.sound |
| `InterTaint.C83_distributive` | propext, Classical.choice, Quot.sound |
| `InterTaint.C83_monotone` | propext, Classical.choice, Quot.sound |
| `InterTaint.C83_sound_partial` | propext, Classical.choice, Quot.sound |
| `InterTaint.C83_leak_partial` | propext, Classical.choice, Quot.sound |
| `InterTaint.C83_leak_exact` | propext, Quot.sound |
| `InterTaint.C83_result_partial` | propext, Classical.choice, Quot.sound |
| `InterTaint.C83_static` | propext, Quot.sound |
| `InterTaint.C83_op_false` | propext, Classical.choice, Quot.sound |
| `InterTaint.C83_pointer_false` | propext, Classical.choice, Quot.sound |
| `InterTaint.C83_alias_false` | propext, Classical.choice, Quot.sound |
| `InterTaint.C83_declaration_false` | propext, Classical.choice, Quot.sound |
| `InterTaint.C83_vararg_false` | propext, Classical.choice, Quot.sound |
| `InterTaint.C83_global_false` | propext, Quot.sound |
| `InterTaint.C83_main_false` | propext, Quot.sound |
| `InterTaint.C83_arity` | propext, Quot.sound |
| `Pamm.C84_timer` | propext, Quot.sound |
| `Pamm.C84_elapsed` | propext, Quot.sound |
| `Pamm.C84_export_partial` | propext, Quot.sound |
| `Pamm.C84_export_false` | none |
| `Pamm.C84_protocol` | propext, Quot.sound |
| `Pamm.C84_counter` | propext, Quot.sound |
| `Pamm.C84_sum` | propext, Quot.sound |
| `Pamm.C84_histogram` | propext, Quot.sound |
| `GLCA.GProg.C85_normal` | propext, Quot.sound |
| `GLCA.GProg.C85_callee` | propext, Quot.sound |
| `GLCA.GProg.C85_callee_undefined` | propext, Quot.sound |
| `GLCA.GProg.C85_caller` | propext, Classical.choice, Quot.sound |
| `GLCA.GProg.C85_caller_undefined` | propext, Quot.sound |
| `GLCA.GProg.C85_sound_partial` | propext, Classical.choice, Quot.sound |
| `GLCA.GProg.C85_reached` | propext, Classical.choice, Quot.sound |
| `GLCA.GProg.C85_result_partial` | propext, Classical.choice, Quot.sound |
| `GLCA.GProg.C85_edge_initial` | propext, Quot.sound |
| `GLCA.GProg.C85_edge_keep` | propext, Quot.sound |
| `GLCA.GProg.C85_edge_copy` | propext, Quot.sound |
| `GLCA.GProg.C85_edge_store` | propext, Quot.sound |
| `GLCA.GProg.C85_edge_cast` | propext, Quot.sound |
| `GLCA.GProg.C85_edge_bin` | propext, Quot.sound |
| `GLCA.GProg.C85_edge_call` | propext, Quot.sound |
| `GLCA.GProg.C85_edge_ret` | propext, Quot.sound |
| `GLCA.GProg.C85_call_to_return` | propext, Quot.sound |
| `GLCA.GProg.C85_string_constructor` | propext, Quot.sound |
| `GLCA.GProg.C85_string_unknown` | propext, Quot.sound |
| `GLCA.GProg.C85_string_callee` | propext |
| `GLCA.GProg.C85_seeds` | propext, Quot.sound |
| `GLCA.GProg.C85_constant` | propext, Quot.sound |
| `GLCA.GProg.C85_constant_value` | propext |
| `GLCA.GProg.C85_constant_read` | propext, Quot.sound |
| `GLCA.GProg.C85_global_false` | propext, Quot.sound |
| `GLCA.GProg.C85_merge_false` | propext, Quot.sound |
| `GLCA.GProg.C85_loop_false` | propext, Quot.sound |
| `GLCA.GProg.C85_printf_false` | propext |
| `GLCA.GProg.C85_array_false` | propext, Quot.sound |
| `GLCA.GProg.C85_offset_false` | propext |
| `GLCA.GProg.C85_resume_false` | propext |
| `GLCA.GProg.C85_element_false` | propext, Quot.sound |
| `InterConst.C86_call` | propext, Classical.choice, Quot.sound |
| `InterConst.C86_call_undefined` | propext, Classical.choice, Quot.sound |
| `InterConst.C86_return` | propext, Classical.choice, Quot.sound |
| `InterConst.C86_return_undefined` | propext, Quot.sound |
| `InterConst.C86_solver` | propext, Classical.choice, Quot.sound |
| `InterConst.C86_past` | propext, Quot.sound |
| `InterConst.C86_edge` | propext, Classical.choice, Quot.sound |
| `InterConst.C86_join` | propext, Classical.choice, Quot.sound |
| `InterConst.C86_sound_partial` | propext, Classical.choice, Quot.sound |
| `InterConst.C86_two_returns_false` | propext, Classical.choice, Quot.sound |
| `InterConst.C86_pointer_false` | propext, Classical.choice, Quot.sound |
| `InterConst.C86_returned_false` | propext, Classical.choice, Quot.sound |
| `Stats.C87_report` | propext, Quot.sound |
| `Stats.C87_sets` | propext, Classical.choice, Quot.sound |
| `Stats.C87_undefined` | propext, Classical.choice, Quot.sound |
| `Stats.C87_text` | propext |
| `Stats.C87_indent` | propext, Classical.choice, Quot.sound |
| `Stats.C87_aligned` | propext, Classical.choice, Quot.sound |
| `Stats.C87_max` | propext, Quot.sound |
| `Stats.C87_max_partial` | propext, Quot.sound |
| `Stats.C87_address_taken` | propext, Quot.sound |
| `Stats.C87_address_taken_partial` | propext, Quot.sound |
| `Stats.C87_max_false` | propext |
| `Stats.C87_address_taken_false` | propext, Quot.sound |
| `Stats.C87_rerun` | propext, Quot.sound |
| `IRToSrc.C88_intrinsic` | propext, Classical.choice, Quot.sound |
| `IRToSrc.C88_name` | propext, Classical.choice, Quot.sound |
| `IRToSrc.C88_location` | propext, Classical.choice, Quot.sound |
| `IRToSrc.C88_agree` | propext |
| `IRToSrc.C88_file_partial` | propext, Classical.choice, Quot.sound |
| `IRToSrc.C88_path` | propext |
| `IRToSrc.C88_context` | propext |
| `IRToSrc.C88_trim` | propext |
| `IRToSrc.C88_source` | propext |
| `IRToSrc.C88_info` | propext |
| `IRToSrc.C88_json` | propext, Classical.choice, Quot.sound |
| `IRToSrc.C88_json_read` | propext, Quot.sound |
| `IRToSrc.C88_json_eq` | propext, Classical.choice, Quot.sound |
| `IRToSrc.C88_eq` | propext, Quot.sound |
| `IRToSrc.C88_equivalent` | propext, Quot.sound |
| `IRToSrc.C88_equivalent_partial` | propext, Quot.sound |
| `IRToSrc.C88_file_false` | propext, Classical.choice, Quot.sound |
| `IRToSrc.C88_json_false` | propext, Classical.choice, Quot.sound |
| `IRToSrc.C88_equivalent_false` | propext, Classical.choice, Quot.sound |
| `SolverConfig.C89_bits` | propext, Classical.choice, Quot.sound |
| `SolverConfig.C89_has` | propext, Classical.choice, Quot.sound |
| `SolverConfig.C89_set` | propext, Classical.choice, Quot.sound |
| `SolverConfig.C89_config` | propext, Classical.choice, Quot.sound |
| `SolverConfig.C89_initial` | propext, Classical.choice, Quot.sound |
| `SolverConfig.C89_print_partial` | propext, Classical.choice, Quot.sound |
| `SolverConfig.C89_print_false` | propext, Quot.sound |
| `EntryPoints.C90_order` | propext, Quot.sound |
| `EntryPoints.C90_default` | propext, Classical.choice, Quot.sound |
| `EntryPoints.C90_add` | propext, Quot.sound |
| `EntryPoints.C90_lca` | propext, Classical.choice, Quot.sound |
| `EntryPoints.C90_lca_undefined` | propext, Classical.choice, Quot.sound |
| `EntryPoints.C90_glca` | propext, Classical.choice, Quot.sound |
| `EntryPoints.C90_iia` | propext, Classical.choice, Quot.sound |
| `EntryPoints.C90_taint` | propext, Classical.choice, Quot.sound |
| `EntryPoints.C90_xtaint` | propext, Classical.choice, Quot.sound |
| `EntryPoints.C90_taint_all_false` | propext, Classical.choice, Quot.sound |
| `EntryPoints.C90_all_false` | propext, Quot.sound |
| `CFG.C91_backward_wf` | propext, Quot.sound |
| `CFG.C91_backward_queries` | propext, Classical.choice, Quot.sound |
| `CFG.C91_backward_start` | propext, Classical.choice, Quot.sound |
| `CFG.C91_backward_wfv_false` | propext, Quot.sound |
| `CFG.C91_backward_none` | propext, Classical.choice, Quot.sound |
| `CFG.C91_backward_false` | propext, Quot.sound |
| `CFG.C91_wf` | propext, Quot.sound |
| `CFG.C91_unique` | propext, Quot.sound |
| `CFG.C91_queries_partial` | propext, Classical.choice, Quot.sound |
| `CFG.C91_visible` | propext, Classical.choice, Quot.sound |
| `CFG.C91_wfv` | propext, Classical.choice, Quot.sound |
| `CFG.C91_wfv_all` | propext, Classical.choice, Quot.sound |
| `CFG.C91_ifds` | propext, Classical.choice, Quot.sound |
| `CFG.C91_ide` | propext, Classical.choice, Quot.sound |
| `LibSummary.C92_libc` | propext, Quot.sound |
| `LibSummary.C92_libc_known` | propext, Quot.sound |
| `LibSummary.C92_get_false` | propext, Quot.sound |
| `LibSummary.C92_libc_noop` | propext, Quot.sound |
| `LibSummary.C92_libc_variants_partial` | propext, Quot.sound |
| `LibSummary.C92_libc_variants_false` | propext, Quot.sound |
| `LibSummary.C92_libc_strings` | propext, Quot.sound |
| `LibSummary.C92_libc_missing_false` | propext, Quot.sound |
| `LibSummary.C92_libc_copy_false` | propext, Quot.sound |
| `LibSummary.C92_libc_snprintf_false` | propext, Quot.sound |
| `LibSummary.C92_libc_flow_false` | propext, Quot.sound |
| `LibSummary.C92_facts` | propext, Quot.sound |
| `LibSummary.C92_known` | propext, Quot.sound |
| `LibSummary.C92_get` | propext, Quot.sound |
| `LibSummary.C92_read` | propext, Quot.sound |
| `LibSummary.C92_query` | propext, Quot.sound |
| `LibSummary.C92_flow` | propext, Quot.sound |
| `LibSummary.C92_flow_variadic` | propext, Classical.choice, Quot.sound |
| `Helper.C93_answer` | propext, Quot.sound |
| `Helper.C93_stable` | propext, Quot.sound |
| `Helper.C93_once` | propext, Quot.sound |
| `Helper.C93_lazy` | propext, Quot.sound |
| `Helper.C93_cfg` | propext, Quot.sound |
| `Helper.C93_cfg_false` | propext, Quot.sound |
| `Helper.C93_destroy` | propext, Quot.sound |
| `Config.C94_parse` | propext, Classical.choice, Quot.sound |
| `Config.C94_empty` | propext, Classical.choice, Quot.sound |
| `Config.C94_empty_false` | propext, Classical.choice, Quot.sound |
| `Config.C94_star_false` | propext, Classical.choice, Quot.sound |
| `Config.C94_names` | propext, Classical.choice, Quot.sound |
| `EnumStr.C95_switch` | propext, Quot.sound |
| `EnumStr.C95_dfa` | propext, Classical.choice, Quot.sound |
| `EnumStr.C95_cga` | propext, Classical.choice, Quot.sound |
| `EnumStr.C95_aa` | propext, Classical.choice, Quot.sound |
| `EnumStr.C95_strat` | propext, Classical.choice, Quot.sound |
| `EnumStr.C95_snd` | propext, Classical.choice, Quot.sound |
| `EnumStr.C95_smf` | propext, Quot.sound |
| `EnumStr.C95_alias` | none |
| `EnumStr.C95_alias_false` | none |
| `EnumStr.C95_distinct` | propext, Classical.choice, Quot.sound |
