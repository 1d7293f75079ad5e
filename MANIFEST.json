{
 "claims": [
  {
   "property": "C01",
   "status": "proved",
   "theorems": [
    "Phasar.IDE.C01_ifds_exact",
    "Phasar.IDE.C01_ifds_complete"
   ],
   "note": "For seeds at start points, one start point per function, followReturnsPastSeeds off, and summaries whose call flow is empty (or callees without body); the completeness half needs only the seed condition."
  },
  {
   "property": "C02",
   "status": "proved",
   "theorems": [
    "Phasar.IDE.C02_sound_facts",
    "Phasar.IDE.C02_sound",
    "Phasar.IDE.C02_sound_for",
    "Phasar.IDE.C02_builtin"
   ],
   "note": "For seeds at start points and edge functions/values that do not degenerate to Top (the solver deliberately stops at Top). C02_sound_facts needs well-behaved edge functions only for facts that can occur."
  },
  {
   "property": "C03",
   "status": "proved",
   "theorems": [
    "Phasar.IDE.C03_lub",
    "Phasar.IDE.C03_lub_for",
    "Phasar.IDE.C03_stays"
   ],
   "note": "Same structural conditions as C01, exact and distributive edge-function algebra (C03_lub); C03_lub_for needs exactness only of the edge functions between each pair of facts and is used for C73. C03_stays needs no soundness of joins: the reported value is in every set of values that the runs do not leave (used for C74)."
  },
  {
   "property": "C04",
   "status": "proved",
   "theorems": [
    "Phasar.IDE.C04_order_independent",
    "Phasar.IDE.C04_facts_order_independent"
   ],
   "note": "Values under the C03 conditions, facts without distributivity."
  },
  {
   "property": "C05",
   "status": "proved",
   "theorems": [
    "Phasar.IDE.C05_terminates_facts",
    "Phasar.IDE.C05_terminates",
    "Phasar.IDE.C05_terminates_reachable",
    "Phasar.IDE.C05_terminates_values",
    "Phasar.IDE.C05_ifds_total"
   ],
   "note": "Both phases, in every processing order; also for an infinite fact domain with finitely many realizable facts; C05_ifds_total combines with C01. C05_terminates_facts needs well-behaved edge functions only for facts that can occur. C05_terminates_values is for value lattices of infinite height of which only values of finite height occur (used for C74)."
  },
  {
   "property": "C06",
   "status": "partial",
   "theorems": [
    "Phasar.IDE.C06_partial",
    "Phasar.IDE.C06_cancel_on_last_step",
    "Phasar.IDE.C06_zero_interval_livelock",
    "Phasar.IDE.C06_slow_batch_livelock",
    "Phasar.IDE.C06_cancel_on_last_batch",
    "Phasar.IDE.C06_solve"
   ],
   "note": "Equivalence with solve() and absence of UB for completed sessions proved; the full claim is false of the code: cancellation on the last step followed by a continue is UB, and continueUntil can livelock (both proved)."
  },
  {
   "property": "C07",
   "status": "proved",
   "theorems": [
    "Phasar.IDE.C07_intermediate",
    "Phasar.IDE.C07_any_order"
   ],
   "note": "Conditions as in C01 without the summary condition."
  },
  {
   "property": "C08",
   "status": "proved",
   "theorems": [
    "Phasar.IDE.C08_zero_everywhere"
   ],
   "note": "Any flow functions, wrapped by ZeroedFlowFunction as the cache does."
  },
  {
   "property": "C09",
   "status": "partial",
   "theorems": [
    "Phasar.IDE.C09_order_dependent",
    "Phasar.IDE.C09_partial",
    "Phasar.IDE.C09_calls_partial",
    "Phasar.IDE.C09_value_lost"
   ],
   "note": "False of the code: depends on processing order (C09_order_dependent), values lost (C09_value_lost). C09_partial: proved when no analysed call passes a seeded fact into the function."
  },
  {
   "property": "C10",
   "status": "partial",
   "theorems": [
    "Phasar.IDE.C10_phase1",
    "Phasar.IDE.C10_summary_applied",
    "Phasar.IDE.C10_phase2_enters_callee",
    "Phasar.IDE.C10_partial"
   ],
   "note": "Phase I proved; Phase II is false of the code (C10_phase2_enters_callee); C10_partial for empty call flow."
  },
  {
   "property": "C11",
   "status": "partial",
   "theorems": [
    "Phasar.IDE.C11_value_lost",
    "Phasar.IDE.C11_spurious_fact",
    "Phasar.IDE.C11_partial"
   ],
   "note": "False of the code for values (C11_value_lost) and precision (C11_spurious_fact); C11_partial: facts reported everywhere, values at calls and the seed."
  },
  {
   "property": "C12",
   "status": "partial",
   "theorems": [
    "Phasar.EF.C12_compose_over",
    "Phasar.EF.C12_compose_exact",
    "Phasar.EF.C12_compose_proper",
    "Phasar.EF.C12_const_unwrap_safe",
    "Phasar.EF.C12_allTop_not_exact",
    "Phasar.EF.C12_allTop_not_over_nonmonotone"
   ],
   "note": "Exact composition except for AllTop (C12_allTop_not_exact) and over-approximation for monotone functions; both failing cases proved."
  },
  {
   "property": "C13",
   "status": "proved",
   "theorems": [
    "Phasar.EF.C13_join_upper",
    "Phasar.EF.C13_join_exact",
    "Phasar.EF.C13_join_sequence",
    "Phasar.EF.C13_join_bounded",
    "Phasar.EF.C13_const_unwrap_safe"
   ],
   "note": "Upper bound for all built-in joins and sequences of joins."
  },
  {
   "property": "C14",
   "status": "proved",
   "theorems": [
    "Phasar.EF.C14_converges"
   ],
   "note": "Repeated joins into one jump function reach a fixed point within a bound."
  },
  {
   "property": "C15",
   "status": "proved",
   "theorems": [
    "Phasar.C15_lattice_join",
    "Phasar.C15_lattice_join_lub",
    "Phasar.C15_lattice_eq",
    "Phasar.C15_lattice_eq_decides",
    "Phasar.C15_lattice_lt",
    "Phasar.C15_binary"
   ],
   "note": "LatticeDomain and BinaryDomain join/equality/order laws."
  },
  {
   "property": "C16",
   "status": "partial",
   "theorems": [
    "Phasar.C16_forward_reverse",
    "Phasar.C16_partial",
    "Phasar.C16_remove_drops_target",
    "Phasar.C16_remove_result_wrong"
   ],
   "note": "Forward/reverse lookups and foreachEdgeFunction exact for every history; lookupByTarget exact without removeFunction and sound always. With removeFunction the claim is false (C16_remove_drops_target), and removeFunction's result is wrong (C16_remove_result_wrong)."
  },
  {
   "property": "C17",
   "status": "proved",
   "theorems": [
    "Phasar.C17_refines",
    "Phasar.C17_return_values"
   ],
   "note": "Refinement to a partial map for every history, all readers and return values. size is the number of rows."
  },
  {
   "property": "C18",
   "status": "partial",
   "theorems": [
    "Phasar.C18_unobservable",
    "Phasar.C18_at_most_once_partial",
    "Phasar.C18_summary_not_cached",
    "Phasar.C18_callees_needed",
    "Phasar.C18_wide_keys_collide"
   ],
   "note": "Queries return the problem's own answer for every history, given distinct keys, fewer than 2^32 values and callees determined by the call site (both needed: C18_callees_needed, C18_wide_keys_collide). At most one callback per key except for summary flow functions, which are not cached."
  },
  {
   "property": "C19",
   "status": "proved",
   "theorems": [
    "Phasar.C19_factories",
    "Phasar.C19_union",
    "Phasar.C19_compose",
    "Phasar.C19_legacy",
    "Phasar.C19_nodup",
    "Phasar.C19_transfer_same"
   ],
   "note": "All factories and the legacy classes. The documented equations of transferFlow contradict each other when both parameters coincide; C19_transfer_same says what happens then."
  },
  {
   "property": "C20",
   "status": "proved",
   "theorems": [
    "Phasar.C20_zeroed",
    "Phasar.C20_idempotent",
    "Phasar.C20_cache"
   ],
   "note": "Wrapper and its use by the cache."
  },
  {
   "property": "C21",
   "status": "proved",
   "theorems": [
    "Phasar.C21_last_write_wins",
    "Phasar.C21_from_sets",
    "Phasar.C21_zero_added",
    "Phasar.C21_solver_seeds"
   ],
   "note": "Every history of addSeed; zero adding at the start of solving, linked to the solver model."
  },
  {
   "property": "C22",
   "status": "proved",
   "theorems": [
    "Phasar.C22_agree",
    "Phasar.C22_value_ignored",
    "Phasar.C22_ssa",
    "Phasar.C22_ssa_merge",
    "Phasar.C22_ssa_disagree"
   ],
   "note": "Every result table. Also the LLVM SSA accessors: they agree except in the merge case with a default value that is not top (C22_ssa_disagree)."
  },
  {
   "property": "C23",
   "status": "partial",
   "theorems": [
    "Phasar.C23_equations",
    "Phasar.C23_solution",
    "Phasar.C23_least",
    "Phasar.C23_below",
    "Phasar.C23_terminates",
    "Phasar.C23_mid_seed_livelock",
    "Phasar.C23_uninit_loop",
    "Phasar.C23_branch_target_needed",
    "Phasar.C23_solve_twice"
   ],
   "note": "Solution for every merge operator, least solution and termination for monotone flows over a finite-height semilattice when allTop is least, joins are reported as branch targets and only statements without predecessors are seeded. Each hypothesis is shown to be needed: livelock for a seed in a loop, the intersection-merging client that starts from the empty set, a join that is not reported as a branch target, a second solve()."
  },
  {
   "property": "C24",
   "status": "partial",
   "theorems": [
    "Phasar.C24_normal_step_partial",
    "Phasar.C24_call_step_partial",
    "Phasar.C24_call_to_return_step_partial",
    "Phasar.C24_exit_step_partial",
    "Phasar.C24_below_partial",
    "Phasar.C24_solve_below_partial",
    "Phasar.C24_return_leaks",
    "Phasar.C24_partial",
    "Phasar.C24_return_not_propagated",
    "Phasar.C24_collision_livelock",
    "Phasar.C24_break_skips_callee",
    "Phasar.C24_recursion_as_call_to_return",
    "Phasar.C24_two_seeds"
   ],
   "note": "False for the code: returns are not propagated, contexts that coincide overwrite each other and do not terminate, break skips callees, direct recursion is treated as call-to-return, two seeds in one function. Proved: any Analysis map closed under the flows covers every realizable path for every limit K. Also proved: what one processed edge of each kind stores and queues (C24_*_step_partial), and that no run holds a fact outside any solution of the inequalities the worklist edges induce (C24_below_partial); facts leak between the return sites of different calls (C24_return_leaks)."
  },
  {
   "property": "C25",
   "status": "partial",
   "theorems": [
    "Phasar.C25_partial",
    "Phasar.C25_recent",
    "Phasar.C25_pop_push",
    "Phasar.C25_equality",
    "Phasar.C25_init",
    "Phasar.C25_forgets",
    "Phasar.C25_zero_unbounded"
   ],
   "note": "For K >= 1: suffix of the stack, at most K long, exact while the stack stayed within K, last K pushes after any history. False after returning past the limit (C25_forgets) and for K = 0 (C25_zero_unbounded). operator< names a member that does not exist and cannot be instantiated."
  },
  {
   "property": "C26",
   "status": "partial",
   "theorems": [
    "Phasar.C26_partial",
    "Phasar.C26_hash",
    "Phasar.C26_hash_empty",
    "Phasar.C26_iteration_overrun",
    "Phasar.C26_less",
    "Phasar.C26_union_inter"
   ],
   "note": "Union, intersection, difference, insert, erase, count, ==, <, includes, iteration and size agree with the finite sets for every history. False for the hash of equal empty sets (C26_hash_empty) and for iteration while another set of the same type gains elements (C26_iteration_overrun)."
  },
  {
   "property": "C27",
   "status": "partial",
   "theorems": [
    "Phasar.C27_partial",
    "Phasar.C27_reinsert",
    "Phasar.C27_two_classes",
    "Phasar.C27_first_class"
   ],
   "note": "Proved for histories that never insert a key with two different values; false otherwise (C27_reinsert)."
  },
  {
   "property": "C28",
   "status": "partial",
   "theorems": [
    "Phasar.C28_partial",
    "Phasar.C28_stable",
    "Phasar.C28_distinct",
    "Phasar.C28_shrink_use_after_free",
    "Phasar.C28_false"
   ],
   "note": "All operations on any number of vectors refine lists without undefined behaviour or leaks, addresses stable and distinct, provided shrink_to_fit is not called on an empty vector. That case is a use after free in the code (C28_shrink_use_after_free, C28_false)."
  },
  {
   "property": "C29",
   "status": "proved",
   "theorems": [
    "Phasar.C29_minimize",
    "Phasar.C29_node_labels",
    "Phasar.C29_classes",
    "Phasar.C29_fixpoint",
    "Phasar.C29_not_minimal"
   ],
   "note": "For every finite, possibly cyclic graph with weighted edges: terminates, exactly the same label sequences, no more nodes. llvm::IntEqClasses is modelled by leaders (not in the repository). The result is a fixed point: no two remaining nodes have the same outgoing edges (C29_fixpoint); it is not the minimal automaton (C29_not_minimal)."
  },
  {
   "property": "C30",
   "status": "proved",
   "theorems": [
    "Phasar.C30_step",
    "Phasar.C30_run",
    "Phasar.C30_order",
    "Phasar.C30_remove_iter",
    "Phasar.C30_remove_root_iter",
    "Phasar.C30_dedup",
    "Phasar.C30_pop_dangling"
   ],
   "note": "Histories of addNode/addEdge/addRoot/removeEdge/removeRoot/dedupOutEdges/pop refine multigraphs. C30_pop_dangling records that pop leaves in-edges and roots of the popped vertex."
  },
  {
   "property": "C31",
   "status": "proved",
   "theorems": [
    "Phasar.Alias.C31_on_demand",
    "Phasar.Alias.C31_order",
    "Phasar.Alias.C31_partition",
    "Phasar.Alias.C31_handles",
    "Phasar.Alias.C31_calls",
    "Phasar.Alias.C31_introduce",
    "Phasar.Alias.C31_representatives"
   ],
   "note": "For any allocator (released addresses may be reused) and any LLVM alias analysis. The traversal of the IR is abstract: per function the sequence of addPointer/addSingleton/merge calls. C31_calls: interface calls never hit the asserts or null boxes, for modules whose merges are of pointers their functions add. C31_representatives: the per-type representatives keep covering every class. C31_on_demand/C31_order: a query analyses exactly the functions it needs, and the order of the queries does not change the classes."
  },
  {
   "property": "C32",
   "status": "partial",
   "theorems": [
    "Phasar.Alias.C32_partial",
    "Phasar.Alias.C32_false",
    "Phasar.Alias.C32_not_transitive"
   ],
   "note": "Proved when the other analysis relates no two pointers known here that were not related here; otherwise false in the code (C32_false: symmetry lost; C32_not_transitive). Not modelled: Search->second is read after inserts into the same DenseMap (invalidated iterator)."
  },
  {
   "property": "C33",
   "status": "proved",
   "theorems": [
    "Phasar.CG.C33_lists",
    "Phasar.CG.C33_counts",
    "Phasar.CG.C33_handles",
    "Phasar.CG.C33_assert",
    "Phasar.CG.C33_overflow",
    "Phasar.CG.C33_overflow_write"
   ],
   "note": "For every sequence of construction calls: callee and caller lists agree with the set of inserted edges, counts and vertex handles are right as long as the number of functions stays within the reservation (the code's own assert). C33_overflow, C33_overflow_write: beyond it handles dangle on reading and writing."
  },
  {
   "property": "C34",
   "status": "partial",
   "theorems": [
    "Phasar.CG.C34_roundtrip_partial",
    "Phasar.CG.C34_empty",
    "Phasar.CG.C34_null_edge",
    "Phasar.CG.C34_name_clash"
   ],
   "note": "Round trip proved for every non-empty graph whose ids are resolvable. C34_empty: the empty graph is printed as JSON null, which the reader rejects. C34_null_edge: an unresolvable id adds an edge from the null call site. C34_name_clash: functions with equal names are merged."
  },
  {
   "property": "C35",
   "status": "partial",
   "theorems": [
    "Phasar.LCA.C35_fold_partial",
    "Phasar.LCA.C35_fold_64_partial",
    "Phasar.LCA.C35_exact",
    "Phasar.LCA.C35_bitwise",
    "Phasar.LCA.C35_chain",
    "Phasar.LCA.C35_undefined",
    "Phasar.LCA.C35_undefined_false",
    "Phasar.LCA.C35_width_false",
    "Phasar.LCA.C35_unsigned_false"
   ],
   "note": "For every opcode, width 1..64 and operand pair: the low w bits of the folded constant are what the instruction computes, and the constants agree whenever the folded one is a w-bit number; exact for 64 bit and for bitwise operations. C35_exact: folding yields the mathematical result when it exists and fits into 64 bits, bottom otherwise. False in general: C35_width_false (results are not reduced to the width), C35_unsigned_false (udiv/urem computed as signed), C35_undefined_false (remainder of INT64_MIN by -1)."
  },
  {
   "property": "C36",
   "status": "partial",
   "theorems": [
    "Phasar.LCA.C36_created",
    "Phasar.LCA.C36_no_fatal",
    "Phasar.LCA.C36_monotone",
    "Phasar.LCA.C36_distributive_partial",
    "Phasar.LCA.C36_distributive_false",
    "Phasar.LCA.C36_monotone_top_false",
    "Phasar.LCA.C36_compose",
    "Phasar.LCA.C36_compose_bottom",
    "Phasar.LCA.C36_compose_top_false",
    "Phasar.LCA.C36_equal",
    "Phasar.LCA.C36_join",
    "Phasar.LCA.C36_built"
   ],
   "note": "Monotone on non-top values, composition exact (over-approximation after AllBottom), join upper bound, for every function built by any sequence of compositions and joins. Distributive for linear functions; false for multiplication by zero and the like (C36_distributive_false). Composition after AllTop is not composition (C36_compose_top_false); not monotone at top (C36_monotone_top_false)."
  },
  {
   "property": "C37",
   "status": "partial",
   "theorems": [
    "Phasar.IIA.C37_union",
    "Phasar.IIA.C37_extend",
    "Phasar.IIA.C37_extend_top",
    "Phasar.IIA.C37_extend_top_false",
    "Phasar.IIA.C37_path",
    "Phasar.IIA.C37_combine_partial",
    "Phasar.IIA.C37_combine_total",
    "Phasar.IIA.C37_combine_exact",
    "Phasar.IIA.C37_combine_comm",
    "Phasar.IIA.C37_combine_false",
    "Phasar.IIA.C37_joins_partial",
    "Phasar.IIA.C37_joins_total",
    "Phasar.IIA.C37_monotone",
    "Phasar.IIA.C37_distributive"
   ],
   "note": "extend is composition (an over-approximation if the first function is AllTop) and combine is a pointwise upper bound except when a kill or a constant is joined with the identity or an add, where the code deliberately under-approximates (C37_combine_false). Joins of any number of functions of the same kind are exact."
  },
  {
   "property": "C38",
   "status": "partial",
   "theorems": [
    "Phasar.TypeState.C38_join_states",
    "Phasar.TypeState.C38_join_lub",
    "Phasar.TypeState.C38_traits_join_false",
    "Phasar.TypeState.C38_traits_join_partial",
    "Phasar.TypeState.C38_compose",
    "Phasar.TypeState.C38_path_function",
    "Phasar.TypeState.C38_path",
    "Phasar.TypeState.C38_join",
    "Phasar.TypeState.C38_join_exact",
    "Phasar.TypeState.C38_file_protocol",
    "Phasar.TypeState.C38_file",
    "Phasar.TypeState.C38_file_uninit",
    "Phasar.TypeState.C38_file_monotone",
    "Phasar.TypeState.C38_file_signatures",
    "Phasar.TypeState.C38_file_reopen",
    "Phasar.TypeState.C38_call_edge",
    "Phasar.TypeState.C38_kdf_protocol",
    "Phasar.TypeState.C38_kdf_unfetched",
    "Phasar.TypeState.C38_kdf_new",
    "Phasar.TypeState.C38_fetch_protocol",
    "Phasar.TypeState.C38_heap_protocol",
    "Phasar.TypeState.C38_heap_uninit",
    "Phasar.TypeState.C38_mem_protocol",
    "Phasar.TypeState.C38_top_false",
    "Phasar.TypeState.C38_callees_false",
    "Phasar.TypeState.C38_kdf_false",
    "Phasar.TypeState.C38_kdf_compose_false",
    "Phasar.TypeState.C38_heap_false"
   ],
   "note": "Proved for every state machine that never enters its top state, end to end against independent protocols for C's file I/O and the four OpenSSL automata (key derivation functions and contexts, secure heap, secure memory); the stdio functions are classified as their C prototypes say. Exceptions shown as theorems: calls with several callees follow only the first consuming one (C38_callees_false), the OpenSSL automata are not monotone at the bottom state (C38_kdf_false, C38_heap_false), top is treated as uninitialized (C38_top_false), and the join of JoinLatticeTraits<CSTDFILEIOState> is not idempotent (C38_traits_join_false)."
  },
  {
   "property": "C39",
   "status": "partial",
   "theorems": [
    "Phasar.GLCA.C39_join_covers",
    "Phasar.GLCA.C39_join_precise",
    "Phasar.GLCA.C39_join_bound_partial",
    "Phasar.GLCA.C39_binop_covers",
    "Phasar.GLCA.C39_binop_precise",
    "Phasar.GLCA.C39_binop_bound",
    "Phasar.GLCA.C39_intop_partial",
    "Phasar.GLCA.C39_binop_partial",
    "Phasar.GLCA.C39_join_defined",
    "Phasar.GLCA.C39_binop_defined_partial",
    "Phasar.GLCA.C39_less",
    "Phasar.GLCA.C39_typecast_partial",
    "Phasar.GLCA.C39_typecast_covers",
    "Phasar.GLCA.C39_unknown",
    "Phasar.GLCA.C39_strings",
    "Phasar.GLCA.C39_mixed",
    "Phasar.GLCA.C39_binary_edge_partial",
    "Phasar.GLCA.C39_less_strict",
    "Phasar.GLCA.C39_sub_false",
    "Phasar.GLCA.C39_join_bound_false",
    "Phasar.GLCA.C39_div_zero_false",
    "Phasar.GLCA.C39_trunc_false",
    "Phasar.GLCA.C39_ext_false",
    "Phasar.GLCA.C39_zext_false",
    "Phasar.GLCA.C39_configured_false",
    "Phasar.GLCA.C39_empty_false"
   ],
   "note": "Join, set operations, typecasts and operator< cover every member (pair); set operations respect the bound; every integer operation except subtraction computes LLVM's result. The unknown value absorbs, strings add by concatenation, edge functions of binary operations have the constant on the right side. False and shown so: integer subtraction (computes Lhs - Lhs), the bound when the left argument of join already exceeds it, constant division by zero and casts from 64 to 32 bits (assertion/UB), widening casts that keep the width, the ignored configured maximum, non-monotone binary edge functions on the empty set. Floating-point values only up to the code's own comparison."
  },
  {
   "property": "C40",
   "status": "partial",
   "theorems": [
    "Phasar.XTaint.C40_idempotent",
    "Phasar.XTaint.C40_bounds",
    "Phasar.XTaint.C40_join_level",
    "Phasar.XTaint.C40_unsanitized",
    "Phasar.XTaint.C40_unsanitized_only",
    "Phasar.XTaint.C40_leak_kept",
    "Phasar.XTaint.C40_suppressed",
    "Phasar.XTaint.C40_chain",
    "Phasar.XTaint.C40_comm_partial",
    "Phasar.XTaint.C40_assoc_partial",
    "Phasar.XTaint.C40_kill_monotone",
    "Phasar.XTaint.C40_transfer_monotone_partial",
    "Phasar.XTaint.C40_functions_unsanitized",
    "Phasar.XTaint.C40_kill_eq",
    "Phasar.XTaint.C40_transfer_eq_partial",
    "Phasar.XTaint.C40_compose_partial",
    "Phasar.XTaint.C40_comm_false",
    "Phasar.XTaint.C40_oscillates_false",
    "Phasar.XTaint.C40_assoc_false",
    "Phasar.XTaint.C40_comm_switch_false",
    "Phasar.XTaint.C40_transfer_top_false",
    "Phasar.XTaint.C40_transfer_eq_false",
    "Phasar.XTaint.C40_compose_false"
   ],
   "note": "Idempotent, bounded, never goes down a level, never forgets an unsanitized path (any order and number of joins, up to the suppression of leaks); kill edge function monotone and equality sound. Commutative and associative only up to the recorded exceptions; false in general and shown so, including an endless oscillation of two values. The transfer function is monotone except at top and its equality ignores the load (shown)."
  },
  {
   "property": "C41",
   "status": "partial",
   "theorems": [
    "Phasar.SpecialMember.C41_blocked",
    "Phasar.SpecialMember.C41_digits",
    "Phasar.SpecialMember.C41_result",
    "Phasar.SpecialMember.C41_constructor_partial",
    "Phasar.SpecialMember.C41_destructor_partial",
    "Phasar.SpecialMember.C41_copy_partial",
    "Phasar.SpecialMember.C41_move_partial",
    "Phasar.SpecialMember.C41_long_false",
    "Phasar.SpecialMember.C41_find",
    "Phasar.SpecialMember.C41_loop_ends",
    "Phasar.SpecialMember.C41_found",
    "Phasar.SpecialMember.C41_fuel",
    "Phasar.SpecialMember.C41_returns_partial",
    "Phasar.SpecialMember.C41_deterministic",
    "Phasar.SpecialMember.C41_mangled",
    "Phasar.SpecialMember.C41_hang_false",
    "Phasar.SpecialMember.C41_throw_false",
    "Phasar.SpecialMember.C41_method_false"
   ],
   "note": "The search loop ends exactly for the names that start with none of the codes (C41_loop_ends), in particular for all mangled names; the function hangs on C1 (C41_hang_false) and throws on numbers of 2^64 or more (C41_throw_false). C41_result: the result is the kind of the first code of the table with an occurrence that is not taken to be inside of an identifier, None if there is none. C41_constructor/destructor/copy/move: right for members of one class with a name of less than 48 characters; wrong for methods (C41_method_false) and longer names (C41_long_false)."
  },
  {
   "property": "C42",
   "status": "partial",
   "theorems": [
    "Phasar.CFG.C42_succs_partial",
    "Phasar.CFG.C42_preds",
    "Phasar.CFG.C42_inverse_partial",
    "Phasar.CFG.C42_lazy",
    "Phasar.CFG.C42_succ_pred",
    "Phasar.CFG.C42_edges",
    "Phasar.CFG.C42_edges_step_partial",
    "Phasar.CFG.C42_start",
    "Phasar.CFG.C42_branchTarget",
    "Phasar.CFG.C42_declaration",
    "Phasar.CFG.C42_fallThrough",
    "Phasar.CFG.C42_false",
    "Phasar.CFG.C42_branchTarget_false",
    "Phasar.CFG.C42_start_false",
    "Phasar.CFG.C42_exit_false",
    "Phasar.CFG.C42_exit_partial"
   ],
   "note": "Successors/predecessors are proved to be exactly the control-flow steps between visible instructions, mutually inverse with multiplicity, except at lazy static-initialisation branches (C42_false). isStartPoint with leading debug instructions (C42_start_false), isBranchTarget at non-first instructions (C42_branchTarget_false) and isExitInst on resume (C42_exit_false) disagree with the listing functions; agreement proved otherwise. C42_fallThrough, C42_declaration: the remaining queries."
  },
  {
   "property": "C43",
   "status": "proved",
   "theorems": [
    "Phasar.Handle.C43_safe",
    "Phasar.Handle.C43_exact",
    "Phasar.Handle.C43_reachable",
    "Phasar.Handle.C43_no_leak",
    "Phasar.Handle.C43_cache",
    "Phasar.Handle.C43_move_cache_false"
   ],
   "note": "Every sequence of construction (plain, cached, small), copy, move, assignment (self-assignment and assignment from inside the assigned function included), swap and destruction: no invalid access, counters exact, live iff reachable from a variable, no leak, caches exact. Sequential model; caches must stay where they are: moving one leaves dangling entries (shown)."
  },
  {
   "property": "C44",
   "status": "partial",
   "theorems": [
    "Phasar.TH.C44_terminates",
    "Phasar.TH.C44_subtypes",
    "Phasar.TH.C44_isSubType",
    "Phasar.TH.C44_super",
    "Phasar.TH.C44_order",
    "Phasar.TH.C44_vtables",
    "Phasar.TH.C44_struct_subtypes_partial",
    "Phasar.TH.C44_struct_roundtrip_partial",
    "Phasar.TH.C44_lookup",
    "Phasar.TH.C44_roundtrip_partial",
    "Phasar.TH.C44_struct_opaque_false",
    "Phasar.TH.C44_struct_clash_false",
    "Phasar.TH.C44_struct_load_false",
    "Phasar.TH.C44_roundtrip_names_false",
    "Phasar.TH.C44_roundtrip_null_false"
   ],
   "note": "Debug-information hierarchy: terminates on every acyclic inheritance graph, getSubTypes, isSubType and hasType exact, super types inverse, partial order, virtual tables exact. Struct-type hierarchy: exact if names without prefix are distinct and type infos use casts; false otherwise and shown (opaque pointers, equal names). Which type a serialized name refers to is proved (C44_lookup). Reading serialized hierarchies back is the identity only with distinct plain names and without null entries in virtual tables; counterexamples given."
  },
  {
   "property": "C45",
   "status": "partial",
   "theorems": [
    "Phasar.CG.C45_terminates",
    "Phasar.CG.C45_exact_partial",
    "Phasar.CG.C45_covers_partial",
    "Phasar.CG.C45_vertices_partial",
    "Phasar.CG.C45_order_partial",
    "Phasar.CG.C45_unreported",
    "Phasar.CG.C45_same_size",
    "Phasar.CG.C45_unsound"
   ],
   "note": "Termination and memory safety for every resolver with finitely many targets; exact edge set (least fixpoint), exact set of function vertices and order independence for resolvers whose answers grow only with the edges they are told about, provided changing resolvers report it and soundness is on. False otherwise: C45_unreported (as DTAResolver), C45_same_size, C45_unsound. preCall/postCall (empty everywhere) not modelled; the resolvers themselves (CHA, RTA, OTF, ...) are abstract."
  },
  {
   "property": "C46",
   "status": "partial",
   "theorems": [
    "Phasar.Util.C46_removes",
    "Phasar.Util.C46_kept",
    "Phasar.Util.C46_end",
    "Phasar.Util.C46_forward_false"
   ],
   "note": "Random-access version (the only one instantiated) proved for every ascending index list whose first index is in range and which does not contain both the last index and the index behind it. C46_end: undefined behaviour otherwise. C46_forward_false: the version for other iterators removes the wrong elements as soon as two indices are given."
  },
  {
   "property": "C47",
   "status": "partial",
   "theorems": [
    "Phasar.CFG.C47_mirror_partial",
    "Phasar.CFG.C47_ret",
    "Phasar.CFG.C47_edges",
    "Phasar.CFG.C47_false",
    "Phasar.CFG.C47_paths_partial",
    "Phasar.CFG.C47_exit",
    "Phasar.CFG.C47_start_partial",
    "Phasar.CFG.C47_branchTarget",
    "Phasar.CFG.C47_branchTarget_false"
   ],
   "note": "Backward predecessors/successors mirror the forward ones for every function; the artificial return node is proved in C47_ret. C47_false: getAllControlFlowEdges lists the pairs swapped and includes debug values, getPredsOf dereferences null for a return node. C47_paths_partial: paths are mirrored; C47_exit, C47_start_partial, C47_branchTarget: start and exit points and branch targets; C47_branchTarget_false: switches."
  },
  {
   "property": "C48",
   "status": "partial",
   "theorems": [
    "Phasar.StringID.C48_same_object",
    "Phasar.StringID.C48_strict_weak_order",
    "Phasar.StringID.C48_numbers_first",
    "Phasar.StringID.C48_by_value",
    "Phasar.StringID.C48_strtol_number",
    "Phasar.StringID.C48_saturates",
    "Phasar.StringID.C48_strtol_name",
    "Phasar.StringID.C48_distinct_partial",
    "Phasar.StringID.C48_overflow_false",
    "Phasar.StringID.C48_nonnumeric",
    "Phasar.StringID.C48_names_false",
    "Phasar.StringID.C48_suffix_false",
    "Phasar.StringID.C48_node_order",
    "Phasar.StringID.C48_edge_order"
   ],
   "note": "StringIDLess is a strict weak order, numbers come first and are ordered by value, and different numeric ids within the range of long are never equivalent; but because of comparing the wrong pointer all non-numeric ids are equivalent (C48_nonnumeric, C48_names_false). The orders of DOTNode and DOTEdge are strict weak orders. Beyond LONG_MAX numbers saturate and become equivalent (C48_overflow_false)."
  },
  {
   "property": "C49",
   "status": "partial",
   "theorems": [
    "Phasar.LCA.Prog.C49_sound_partial",
    "Phasar.LCA.Prog.C49_reached",
    "Phasar.LCA.Prog.C49_terminates",
    "Phasar.LCA.Prog.C49_total_partial",
    "Phasar.LCA.Prog.C49_untracked_false",
    "Phasar.LCA.Prog.C49_extract_false",
    "Phasar.LCA.Prog.C49_saturating_false",
    "Phasar.LCA.Prog.C49_mixed_callees_false",
    "Phasar.LCA.Prog.C49_external_false"
   ],
   "note": "Flow functions, edge functions and seeds modelled as an input of the solver model. C49_sound_partial: in every execution (calls, recursion, globals, intrinsics), every tracked variable and memory location has a result at the current statement that describes its value; C49_terminates/C49_total_partial: the solver ends on every finite program. Missing: pointers passed to functions, unsigned division, division below 64 bits, external functions that write memory. False for values the analysis does not track (C49_untracked_false), overflow bits (C49_extract_false), saturating intrinsics (C49_saturating_false), calls with defined and external callees (C49_mixed_callees_false), external functions that change globals (C49_external_false)."
  },
  {
   "property": "C50",
   "status": "partial",
   "theorems": [
    "Phasar.FlowFn.C50_alongside",
    "Phasar.FlowFn.C50_callee",
    "Phasar.FlowFn.C50_caller_partial",
    "Phasar.FlowFn.C50_zero_false",
    "Phasar.FlowFn.C50_store",
    "Phasar.FlowFn.C50_store_value",
    "Phasar.FlowFn.C50_roundtrip"
   ],
   "note": "Exact characterisation of the facts produced by mapFactsAlongsideCallSite, mapFactsToCallee, mapFactsToCaller and strongUpdateStore, for all predicates and flags. The flag that suppresses the zero fact at returns has no effect when globals are propagated, since the zero value is itself a global (C50_zero_false); C50_caller_partial states what happens instead."
  },
  {
   "property": "C51",
   "status": "partial",
   "theorems": [
    "Phasar.Taint.C51_operands_partial",
    "Phasar.Taint.C51_complete_partial",
    "Phasar.Taint.C51_complete_auto_partial",
    "Phasar.Taint.C51_terminates",
    "Phasar.Taint.C51_total_partial",
    "Phasar.Taint.C51_no_source",
    "Phasar.Taint.C51_not_entered",
    "Phasar.Taint.C51_arith_false",
    "Phasar.Taint.C51_one_use_false",
    "Phasar.Taint.C51_sret_false",
    "Phasar.Taint.C51_library_alias_false",
    "Phasar.Taint.C51_shadowed_library_false",
    "Phasar.Taint.C51_sanitizer_false",
    "Phasar.Taint.C51_later_alias_false"
   ],
   "note": "All flow functions, summaries, seeds and the collection of leaks modelled as an input of the solver model; executions with taint bits, an object memory, recursion and external calls as specification. C51_operands_partial, C51_complete_partial (C51_complete_auto_partial with automatic zero facts): every tainted operand of every reached statement is a result there, every leak of an execution is reported, given sound aliases; C51_terminates, C51_total_partial: the solver ends on finite programs; C51_no_source: without sources nothing is reported; C51_not_entered: exactly which calls are not followed into the callee. Missing: memory holding addresses, fields of objects, variable arguments. False for arithmetic, phi and select (C51_arith_false), pointer parameters with one use (C51_one_use_false), structures returned through a pointer (C51_sret_false), aliases of what a library function writes (C51_library_alias_false), library functions that are also configured (C51_shadowed_library_false), pointers loaded later in the block (C51_later_alias_false); a declared sanitizer has no effect (C51_sanitizer_false)."
  },
  {
   "property": "C52",
   "status": "partial",
   "theorems": [
    "Phasar.ESG.C52_total",
    "Phasar.ESG.C52_registered",
    "Phasar.ESG.C52_value_partial",
    "Phasar.ESG.C52_links_sound_partial",
    "Phasar.ESG.C52_ends_partial",
    "Phasar.ESG.C52_links_complete_partial",
    "Phasar.ESG.C52_path_partial",
    "Phasar.ESG.C52_numNeighbors_false",
    "Phasar.ESG.C52_seed_lost_false",
    "Phasar.ESG.C52_merged_spurious_false",
    "Phasar.ESG.C52_cycle_false",
    "Phasar.ESG.C52_two_calls_false",
    "Phasar.ESG.C52_seed_value_false",
    "Phasar.ESG.C52_seed_unregistered_false",
    "Phasar.ESG.C52_assert_false"
   ],
   "note": "saveEdges, saveEdge, node making, connecting and the lookups modelled; the calls of the solver are any causal sequence. C52_total: indices stay inside; C52_registered: exactly the seeds and targets have nodes (seeds only if an edge leaves them); C52_value_partial; C52_links_sound_partial, C52_ends_partial: every link is a reported edge, every start a seed or zero; C52_links_complete_partial, C52_path_partial: every flow from a non-seed is a step back, paths are chains. False in general: the edge of a seed can be overwritten (C52_seed_lost_false), pairs of one block sharing a node share later alternatives (C52_merged_spurious_false), cycles without cyclic flows (C52_cycle_false), the second of two calls in a block missing (C52_two_calls_false), edges into seeds attached to the wrong fact (C52_seed_value_false), seeds without node (C52_seed_unregistered_false), the assertion can fail (C52_assert_false), getNumNeighbors returns a bool (C52_numNeighbors_false)."
  },
  {
   "property": "C53",
   "status": "partial",
   "theorems": [
    "Phasar.Dag.C53_sound",
    "Phasar.Dag.C53_acyclic",
    "Phasar.Dag.C53_terminates",
    "Phasar.Dag.C53_loops_false",
    "Phasar.Dag.C53_nonempty",
    "Phasar.Dag.C53_complete_partial",
    "Phasar.Dag.C53_invalid_unchanged",
    "Phasar.Dag.C53_assertIsDAG",
    "Phasar.Dag.C53_reverseGraph",
    "Phasar.Dag.C53_recorded_partial",
    "Phasar.Dag.C53_endless_false",
    "Phasar.Dag.C53_break_lost_false",
    "Phasar.Dag.C53_second_lost_false",
    "Phasar.Dag.C53_end_hidden_false",
    "Phasar.Dag.C53_priority_false"
   ],
   "note": "pathsToImpl, pathsToImplLA with cache, current path and rollback, assertIsDAG, reverseGraph modelled; depth limit and minimisation in C59. C53_sound, C53_acyclic, C53_terminates, C53_nonempty (one fact), C53_invalid_unchanged, C53_assertIsDAG, C53_reverseGraph hold for all graphs and filters; C53_complete_partial for acyclic graphs without ends in the filter; C53_recorded_partial combines with C52: the statements of a way back are sources of reported edges. False in general: endless loop on cycles of plain predecessors (C53_loops_false, C53_endless_false on a recorded graph), an acyclic path lost because of the cache (C53_break_lost_false), all paths of the second fact lost (C53_second_lost_false), ends hidden when the way goes on (C53_end_hidden_false), inconsistent priority of end and error (C53_priority_false)."
  },
  {
   "property": "C54",
   "status": "partial",
   "theorems": [
    "Phasar.PathFilter.C54_direct",
    "Phasar.PathFilter.C54_callstack",
    "Phasar.PathFilter.C54_restore",
    "Phasar.PathFilter.C54_suitable",
    "Phasar.PathFilter.C54_filter",
    "Phasar.PathFilter.C54_paths",
    "Phasar.PathFilter.C54_query_partial",
    "Phasar.PathFilter.C54_final",
    "Phasar.PathFilter.C54_return_false",
    "Phasar.PathFilter.C54_threshold_false",
    "Phasar.PathFilter.C54_invoke_false"
   ],
   "note": "filterOutUnreachableNodes, filterAndFlattenRevDag, both path filters with save and restore, isDirectSuccessorOf, deduplicatePaths and pathsTo modelled; Z3 is a parameter with soundness as hypothesis (any answer 'unknown' allowed). C54_direct, C54_callstack, C54_restore: the call stack filter accepts exactly the matched paths; C54_suitable: the graphs of C53 meet the hypotheses; C54_filter: no satisfiable path is removed; C54_paths: no duplicates, only paths of the graph that are matched and not refuted, with the right constraint, and all satisfiable matched ones above a threshold; C54_query_partial: the same in terms of the ways back of the exploded supergraph (completeness for acyclic ones); C54_final: when the doubled last edge is harmless. False in general: at a return of a called function nothing is reported (C54_return_false), more paths than the threshold (C54_threshold_false), a return past an invoke is accepted (C54_invoke_false)."
  },
  {
   "property": "C55",
   "status": "partial",
   "theorems": [
    "Phasar.PathConstr.C55_cache",
    "Phasar.PathConstr.C55_steps",
    "Phasar.PathConstr.C55_none",
    "Phasar.PathConstr.C55_exact_partial",
    "Phasar.PathConstr.C55_trunc_partial",
    "Phasar.PathConstr.C55_phi",
    "Phasar.PathConstr.C55_variables",
    "Phasar.PathConstr.C55_sort",
    "Phasar.PathConstr.C55_casts",
    "Phasar.PathConstr.C55_path_partial",
    "Phasar.PathConstr.C55_reported_partial",
    "Phasar.PathConstr.C55_base",
    "Phasar.PathConstr.C55_shift",
    "Phasar.PathConstr.C55_trunc_false",
    "Phasar.PathConstr.C55_wrap_false",
    "Phasar.PathConstr.C55_sdiv_false",
    "Phasar.PathConstr.C55_srem_false",
    "Phasar.PathConstr.C55_unsigned_false",
    "Phasar.PathConstr.C55_zext_false",
    "Phasar.PathConstr.C55_same_target_false",
    "Phasar.PathConstr.C55_deref_false",
    "Phasar.PathConstr.C55_changed_false",
    "Phasar.PathConstr.C55_unnamed_false",
    "Phasar.PathConstr.C55_call_false",
    "Phasar.PathConstr.C55_fatal_false",
    "Phasar.PathConstr.C55_endless_false",
    "Phasar.PathConstr.C55_debug_false"
   ],
   "note": "LLVMPathConstraints.cpp modelled with its cache, except floating point. C55_cache, C55_steps: results do not depend on the cache or on the bound of steps; C55_none: which edges have no constraint; C55_exact_partial: the constraint exists and holds exactly if the edge is taken, for the conditions in Good; C55_casts: which casts keep the signed value; C55_trunc_partial: branches on a truncated variable (right for the true edge only); C55_phi: always valid; C55_base: which variable a load is translated to; C55_shift: shifts; C55_variables, C55_sort: constants belong to listed variables, constraints are Boolean; C55_path_partial, C55_reported_partial: with C54, a taken path with such conditions and one model is reported. False in general: false edge of a truncation (C55_trunc_false), overflow, division and remainder of negative numbers, unsigned comparisons, zero extension (C55_wrap_false, C55_sdiv_false, C55_srem_false, C55_unsigned_false, C55_zext_false), branches with one target (C55_same_target_false), values behind pointers (C55_deref_false), variables that change, are unnamed, or repeated calls (C55_changed_false, C55_unnamed_false, C55_call_false), blocks that begin with a debug instruction (C55_debug_false), fatal errors (C55_fatal_false), no termination (C55_endless_false)."
  },
  {
   "property": "C56",
   "status": "partial",
   "theorems": [
    "Phasar.TypeGraph.C56_cached",
    "Phasar.TypeGraph.C56_types",
    "Phasar.TypeGraph.C56_order",
    "Phasar.TypeGraph.C56_new",
    "Phasar.TypeGraph.C56_lazy",
    "Phasar.TypeGraph.C56_lazy_types",
    "Phasar.TypeGraph.C56_agree",
    "Phasar.TypeGraph.C56_aggregate_partial",
    "Phasar.TypeGraph.C56_literal_false",
    "Phasar.TypeGraph.C56_poison_false",
    "Phasar.TypeGraph.C56_unnamed_false",
    "Phasar.TypeGraph.C56_lazy_literal_false",
    "Phasar.TypeGraph.C56_aggregate_false"
   ],
   "note": "CachedTypeGraph.cpp and LazyTypeGraph.cpp modelled with boost's depth-first search. C56_cached, C56_types: getTypes after any calls; C56_order, C56_new: order of links, result of addLink; C56_lazy, C56_lazy_types, C56_agree: the lazy graph; C56_aggregate_partial: aggregateTypes without cycles. False in general: a link to a literal type is propagated from the wrong vertex or ends the program (C56_literal_false, C56_poison_false), unnamed types share one vertex (C56_unnamed_false, C56_lazy_literal_false), aggregateTypes misses types on cycles (C56_aggregate_false)."
  },
  {
   "property": "C57",
   "status": "partial",
   "theorems": [
    "Phasar.Resolver.C57_consistent",
    "Phasar.Resolver.C57_tables",
    "Phasar.Resolver.C57_virtual",
    "Phasar.Resolver.C57_cha",
    "Phasar.Resolver.C57_cha_sound_partial",
    "Phasar.Resolver.C57_allocated",
    "Phasar.Resolver.C57_rta",
    "Phasar.Resolver.C57_rta_le_cha",
    "Phasar.Resolver.C57_rta_sound_partial",
    "Phasar.Resolver.C57_dta_link",
    "Phasar.Resolver.C57_dta",
    "Phasar.Resolver.C57_pointer",
    "Phasar.Resolver.C57_otf_virtual",
    "Phasar.Resolver.C57_otf_pointer",
    "Phasar.Resolver.C57_pairs",
    "Phasar.Resolver.C57_secondary_false",
    "Phasar.Resolver.C57_vbase_false",
    "Phasar.Resolver.C57_direct_false",
    "Phasar.Resolver.C57_covariant_false",
    "Phasar.Resolver.C57_template_false",
    "Phasar.Resolver.C57_struct_false",
    "Phasar.Resolver.C57_unprototyped_false",
    "Phasar.Resolver.C57_rta_false",
    "Phasar.Resolver.C57_alloc_undefined",
    "Phasar.Resolver.C57_dta_ctor_false",
    "Phasar.Resolver.C57_constructor_false",
    "Phasar.Resolver.C57_otf_false"
   ],
   "note": "All resolvers modelled on top of C44 (hierarchy) and C56 (type graph); alias sets are a parameter. Exact results: C57_consistent (signatures), C57_tables, C57_virtual, C57_cha, C57_allocated, C57_rta, C57_dta_link, C57_dta, C57_pointer, C57_otf_virtual, C57_otf_pointer (with termination), C57_pairs; C57_rta_le_cha. Soundness for primary tables: C57_cha_sound_partial, C57_rta_sound_partial. False in general: secondary tables (C57_secondary_false), virtual bases (C57_vbase_false), entries without cast (C57_direct_false), covariant return types (C57_covariant_false), class templates (C57_template_false), function pointers in structs (C57_struct_false), calls without prototype (C57_unprototyped_false), objects that are not plain locals or heap objects (C57_rta_false), casts in constructors (C57_dta_ctor_false, C57_constructor_false), initializers that are not aggregates (C57_otf_false); null dereference (C57_alloc_undefined)."
  },
  {
   "property": "C58",
   "status": "partial",
   "theorems": [
    "Phasar.Uninit.C58_store",
    "Phasar.Uninit.C58_alloca",
    "Phasar.Uninit.C58_use",
    "Phasar.Uninit.C58_call",
    "Phasar.Uninit.C58_ret",
    "Phasar.Uninit.C58_alongside",
    "Phasar.Uninit.C58_results",
    "Phasar.Uninit.C58_reported",
    "Phasar.Uninit.C58_operands_partial",
    "Phasar.Uninit.C58_complete_partial",
    "Phasar.Uninit.C58_complete_auto_partial",
    "Phasar.Uninit.C58_plain_partial",
    "Phasar.Uninit.C58_terminates",
    "Phasar.Uninit.C58_total_partial",
    "Phasar.Uninit.C58_no_locals",
    "Phasar.Uninit.C58_aggregate",
    "Phasar.Uninit.C58_aggregate_split",
    "Phasar.Uninit.C58_struct_false",
    "Phasar.Uninit.C58_indirect_false",
    "Phasar.Uninit.C58_callbr_false",
    "Phasar.Uninit.C58_vararg_false",
    "Phasar.Uninit.C58_lifetime_false",
    "Phasar.Uninit.C58_undef_arg_false",
    "Phasar.Uninit.C58_undef_ret_false",
    "Phasar.Uninit.C58_alias_false",
    "Phasar.Uninit.C58_global_false",
    "Phasar.Uninit.C58_masked_false",
    "Phasar.Uninit.C58_address_false",
    "Phasar.Uninit.C58_aggregate_false"
   ],
   "note": "Executions with memory and undefined values (UninitSem.lean) and flow functions as a tabulation problem (Uninit.lean) on top of C01/C05. Exact: C58_store, C58_alloca, C58_use, C58_call, C58_ret, C58_alongside, C58_results, C58_reported, C58_terminates, C58_no_locals, C58_aggregate, C58_aggregate_split. Completeness under restrictions: C58_operands_partial, C58_complete_partial, C58_complete_auto_partial (with autoAddZero), and for programs that only load from, store through and pass on addresses without any condition on executions: C58_plain_partial, C58_total_partial. Each restriction is needed: C58_struct_false, C58_indirect_false, C58_callbr_false, C58_vararg_false, C58_lifetime_false, C58_undef_arg_false, C58_undef_ret_false, C58_alias_false, C58_global_false. Operands after an undefined literal are never reported (C58_masked_false); addresses are reported (C58_address_false); the report drops uses without a line and merges functions (C58_aggregate_false)."
  },
  {
   "property": "C59",
   "status": "partial",
   "theorems": [
    "Phasar.PathFilter.C59_reverse",
    "Phasar.PathFilter.C59_limit",
    "Phasar.PathFilter.C59_minimize",
    "Phasar.PathFilter.C59_total",
    "Phasar.PathFilter.C59_query_partial",
    "Phasar.PathFilter.C59_length_false"
   ],
   "note": "reverseDAG (model for any classes, theorems for the identity, the only one used), the call of the minimiser (C29) and the options of pathsDagToAll modelled. C59_reverse: exact description of the graph; C59_limit: exact description of its paths, and how they relate to those without the limit; C59_minimize: paths, size and acyclicity; C59_total: every combination of options, never out of bounds, never the fatal error, one leaf for one fact; C59_query_partial: what pathsTo reports (completeness inherits the conditions of C53_complete_partial and C54_query_partial). False in general: the limit does not bound the length of paths (C59_length_false)."
  },
  {
   "property": "C60",
   "status": "partial",
   "theorems": [
    "Phasar.DB.C60_ids",
    "Phasar.DB.C60_stable",
    "Phasar.DB.C60_roundtrip",
    "Phasar.DB.C60_arguments_partial",
    "Phasar.DB.C60_dotted",
    "Phasar.DB.C60_dotted_false",
    "Phasar.DB.C60_unambiguous",
    "Phasar.DB.C60_unprocessed",
    "Phasar.DB.C60_trailing",
    "Phasar.DB.C60_unknown"
   ],
   "note": "Construction (with and without preprocessing), insertFunction, the lookups, getMetaDataID and fromMetaDataId modelled; LLVM's metadata is a map from values to strings. C60_ids, C60_stable: the ids are the positions, for every history. C60_roundtrip: the string leads back for every processed global variable and instruction. C60_unambiguous: the strings determine the values. False for arguments of functions with a dot in the name (C60_dotted: never found; C60_dotted_false: another function's argument is found); C60_arguments_partial: all others are found. C60_unknown: which strings are rejected. C60_unprocessed, C60_trailing: no ids without preprocessing; trailing characters are ignored."
  },
  {
   "property": "C61",
   "status": "partial",
   "theorems": [
    "Phasar.DB.C61_reload_partial",
    "Phasar.DB.C61_resume",
    "Phasar.DB.C61_functions_false",
    "Phasar.DB.C61_dotted_false",
    "Phasar.DB.C61_empty_false",
    "Phasar.DB.C61_foreign"
   ],
   "note": "Model on top of C31 (alias sets) and C60 (ids). C61_reload_partial: what saving and loading keeps, exactly; values without id are dropped. C61_resume: nothing is lost if all known values have ids that lead back to them, also for later computations. C61_foreign: any document with arrays is loaded, unknown ids are skipped. False for functions, arguments of functions with dotted names, and if nothing has been computed (C61_functions_false, C61_dotted_false, C61_empty_false)."
  },
  {
   "property": "C62",
   "status": "partial",
   "theorems": [
    "Phasar.DB.C62_lifetime_partial",
    "Phasar.DB.C62_update_get",
    "Phasar.DB.C62_update_false",
    "Phasar.DB.C62_history_false"
   ],
   "note": "The map ModulesToSlotTracker with its reference counts; the trackers themselves are not modelled. C62_lifetime_partial: exact for every history without updateMSTForModule. False with it: the update constructs a bare ModuleSlotTracker where a wrapper with a count was, so that the next construction or destruction reads an indeterminate count (C62_update_false; C62_history_false: create, update, destroy). C62_update_get: uses remain possible."
  },
  {
   "property": "C63",
   "status": "partial",
   "theorems": [
    "Phasar.Globals.C63_runs_partial",
    "Phasar.Globals.C63_stale",
    "Phasar.Globals.C63_uncalled",
    "Phasar.Globals.C63_envp_false",
    "Phasar.Globals.C63_exit_false",
    "Phasar.Globals.C63_generated",
    "Phasar.Globals.C63_names",
    "Phasar.Globals.C63_generated_false",
    "Phasar.Globals.C63_local_false",
    "Phasar.Globals.C63_gep_false",
    "Phasar.Globals.C63_database",
    "Phasar.Globals.C63_twice_false",
    "Phasar.Globals.C63_entries"
   ],
   "note": "buildModel modelled as a transformation of modules, with an execution semantics (Run) of the generated code that is independent of it. C63_runs_partial: the executions, exactly, for every module with free names that meets the assertions. C63_uncalled: which entry points are called. C63_database: ids of the generated instructions. C63_generated, C63_names: which functions and names are recognised. C63_entries: which entry points are found. False: main with other than 0 or 2 parameters (C63_envp_false), order at exit (C63_exit_false), recognition of the caller of registered destructors (C63_generated_false), registered arguments that are local values or constant expressions (C63_local_false, C63_gep_false), building twice (C63_twice_false: assertion; C63_stale: without the database the old entry points stay in effect). The order of the users of __cxa_atexit is a parameter."
  },
  {
   "property": "C64",
   "status": "partial",
   "theorems": [
    "Phasar.TypeState.Prog.C64_names",
    "Phasar.TypeState.Prog.C64_matching",
    "Phasar.TypeState.Prog.C64_relevant",
    "Phasar.TypeState.Prog.C64_normal",
    "Phasar.TypeState.Prog.C64_call",
    "Phasar.TypeState.Prog.C64_ret_partial",
    "Phasar.TypeState.Prog.C64_over",
    "Phasar.TypeState.Prog.C64_edges",
    "Phasar.TypeState.Prog.C64_cached",
    "Phasar.TypeState.Prog.C64_caches_partial",
    "Phasar.TypeState.Prog.C64_sound_partial",
    "Phasar.TypeState.Prog.C64_reached",
    "Phasar.TypeState.Prog.C64_report_partial",
    "Phasar.TypeState.Prog.C64_reported",
    "Phasar.TypeState.Prog.C64_terminates",
    "Phasar.TypeState.Prog.C64_analysis_partial",
    "Phasar.TypeState.Prog.C64_caches_false",
    "Phasar.TypeState.Prog.C64_may_alias_false",
    "Phasar.TypeState.Prog.C64_report_false",
    "Phasar.TypeState.Prog.C64_second_argument_false",
    "Phasar.TypeState.Prog.C64_global_false",
    "Phasar.TypeState.Prog.C64_temporary_false",
    "Phasar.TypeState.Prog.C64_opaque_false",
    "Phasar.TypeState.Prog.C64_vararg_false",
    "Phasar.TypeState.Prog.C64_no_callee_false"
   ],
   "note": "All flow functions, alias caches, edge selection, seeds and the report as a problem of the solver model; an execution semantics with objects and automaton states that is independent of it (TSSem.lean). Exact flow functions: C64_names, C64_matching, C64_relevant, C64_normal, C64_call, C64_ret_partial, C64_over, C64_edges. C64_sound_partial: results describe every execution, for every program (WF), exact alias information at calls (AliasOk) and automata that leave bottom alone (Regular; proved for the file API), with and without autoAddZero. C64_terminates, C64_reached, C64_analysis_partial, C64_report_partial, C64_reported, C64_cached, C64_caches_partial. False without the requirements: may-aliases get strong updates (C64_may_alias_false), errors behind a join are not reported (C64_report_false), only the first matching argument is killed (C64_second_argument_false), globals and temporaries are lost at calls (C64_global_false, C64_temporary_false), opaque pointers (C64_opaque_false), caches with alias sets that are no classes (C64_caches_false), uninitialized pointer (C64_vararg_false), unknown callees (C64_no_callee_false)."
  },
  {
   "property": "C65",
   "status": "partial",
   "theorems": [
    "Phasar.AML.C65_defined",
    "Phasar.AML.C65_canonical",
    "Phasar.AML.C65_bounded",
    "Phasar.AML.C65_repeat",
    "Phasar.AML.C65_path",
    "Phasar.AML.C65_create",
    "Phasar.AML.C65_offset",
    "Phasar.AML.C65_indirection",
    "Phasar.AML.C65_indirection_none",
    "Phasar.AML.C65_offsets",
    "Phasar.AML.C65_equivalent",
    "Phasar.AML.C65_proper_prefix",
    "Phasar.AML.C65_equivalent_pa",
    "Phasar.AML.C65_overlap",
    "Phasar.AML.C65_cell",
    "Phasar.AML.C65_param",
    "Phasar.AML.C65_store_partial",
    "Phasar.AML.C65_ret_partial",
    "Phasar.AML.C65_transfer_to_partial",
    "Phasar.AML.C65_transfer_from",
    "Phasar.AML.C65_must_alias_partial",
    "Phasar.AML.C65_map_back_partial",
    "Phasar.AML.C65_map_back_only",
    "Phasar.AML.C65_lifetime_false",
    "Phasar.AML.C65_index_false",
    "Phasar.AML.C65_index_kill_false",
    "Phasar.AML.C65_field_pointer_false",
    "Phasar.AML.C65_buffer_false",
    "Phasar.AML.C65_field_argument_false",
    "Phasar.AML.C65_last_offset_false",
    "Phasar.AML.C65_field_return_false",
    "Phasar.AML.C65_back_false",
    "Phasar.AML.C65_alloc_partial",
    "Phasar.AML.C65_reserved",
    "Phasar.AML.C65_alloc_false"
   ],
   "note": "All functions of the location, its factory and its allocator. Proved for all histories: C65_defined (no assertion fails), C65_canonical, C65_bounded, C65_repeat. Against an evaluation of access paths in an arbitrary memory: C65_path, C65_create, C65_offset, C65_offsets, C65_indirection, C65_indirection_none, C65_transfer_from, C65_cell, C65_param; comparisons C65_equivalent, C65_proper_prefix, C65_equivalent_pa, C65_overlap. Partial where a tainted location is compared with the value stored, passed or returned: C65_store_partial, C65_ret_partial, C65_transfer_to_partial, C65_map_back_partial, C65_must_alias_partial; what a return leaves out C65_map_back_only; C65_alloc_partial up to 6141 offsets, C65_reserved. False: lifetimes depend on history (C65_lifetime_false), unknown indices (C65_index_false, C65_index_kill_false), pointers to fields (C65_field_pointer_false, C65_field_argument_false, C65_field_return_false), tainted buffers (C65_buffer_false), the last offset (C65_last_offset_false), over-approximations that come back exact (C65_back_false), blocks (C65_alloc_false)."
  },
  {
   "property": "C66",
   "status": "partial",
   "theorems": [
    "Phasar.XFlow.C66_answers",
    "Phasar.XFlow.C66_store",
    "Phasar.XFlow.C66_config",
    "Phasar.XFlow.C66_normal",
    "Phasar.XFlow.C66_call",
    "Phasar.XFlow.C66_ret",
    "Phasar.XFlow.C66_over",
    "Phasar.XFlow.C66_summary",
    "Phasar.XFlow.C66_normal_edge",
    "Phasar.XFlow.C66_call_edge",
    "Phasar.XFlow.C66_call_edge_id",
    "Phasar.XFlow.C66_ret_edge",
    "Phasar.XFlow.C66_over_edge",
    "Phasar.XFlow.C66_summary_edge",
    "Phasar.XFlow.C66_kept",
    "Phasar.XFlow.C66_cause",
    "Phasar.XFlow.C66_clean",
    "Phasar.XFlow.C66_weak",
    "Phasar.XFlow.C66_insert",
    "Phasar.XFlow.C66_post",
    "Phasar.XFlow.C66_reported",
    "Phasar.XFlow.C66_load",
    "Phasar.XFlow.C66_load_false",
    "Phasar.XFlow.C66_declaration_false",
    "Phasar.XFlow.C66_post_false",
    "Phasar.XFlow.C66_arith_false",
    "Phasar.XFlow.C66_sanitizer_false",
    "Phasar.XFlow.C66_printed_false",
    "Phasar.XFlow.C66_no_callee_false"
   ],
   "note": "All flow functions and edge functions, leaks and post-processing, on the locations of C65 and the lattice of C40. Exact: C66_store, C66_config, C66_normal, C66_call, C66_ret, C66_over, C66_summary; C66_normal_edge, C66_call_edge, C66_call_edge_id, C66_ret_edge, C66_over_edge, C66_summary_edge; C66_insert, C66_post, C66_load. For all paths: C66_kept (no fact is lost within a function), C66_cause (every sanitizer has a cause), C66_clean and C66_reported (a path that sets no sanitizer keeps the leak), C66_weak. C66_answers: the factory may be taken at its end. False: external functions count as sanitizers (C66_declaration_false), leaks are looked up under one fact only (C66_post_false), arithmetic (C66_arith_false), sanitizers with bodies (C66_sanitizer_false), leaks are printed before they are dropped (C66_printed_false), calls without callees end the analysis (C66_no_callee_false), the search for a load need not end (C66_load_false). Not modelled: precise alias information, which the code never has; `HasPreciseAliasInfo` is never set. The tables of the solver are not combined with this lattice, whose join is no least upper bound (C40); what is said holds for all paths."
  },
  {
   "property": "C67",
   "status": "partial",
   "theorems": [
    "Phasar.Const.C67_results",
    "Phasar.Const.C67_answer",
    "Phasar.Const.C67_two",
    "Phasar.Const.C67_again",
    "Phasar.Const.C67_normal",
    "Phasar.Const.C67_other",
    "Phasar.Const.C67_past",
    "Phasar.Const.C67_call",
    "Phasar.Const.C67_ret",
    "Phasar.Const.C67_zero",
    "Phasar.Const.C67_generated",
    "Phasar.Const.C67_mutable_partial",
    "Phasar.Const.C67_origin",
    "Phasar.Const.C67_separate",
    "Phasar.Const.C67_report_partial",
    "Phasar.Const.C67_report_false",
    "Phasar.Const.C67_loop_false",
    "Phasar.Const.C67_order_false"
   ],
   "note": "The flow functions, the member Initialized as state that requests change, and the report. Exact: C67_answer (what a request is answered, in terms of the requests before), C67_normal, C67_call, C67_ret, C67_past, C67_results. For all orders of requests: C67_two, C67_generated, C67_mutable_partial (two different statements write one location: a fact from one of them on), C67_origin, C67_separate. C67_report_partial: what the report keeps of the locations it is given. False: one statement that writes repeatedly (C67_loop_false), order dependence and locations written once (C67_order_false), second runs (C67_again), the report is always empty (C67_report_false). The flow functions are those in the cache of the solver at the end (C18); the order in which the solver asks is a parameter."
  },
  {
   "property": "C68",
   "status": "partial",
   "theorems": [
    "Phasar.C68_results",
    "Phasar.C68_terminates",
    "Phasar.C68_paths",
    "Phasar.C68_uninit_partial",
    "Phasar.C68_acyclic_partial",
    "Phasar.C68_cycle",
    "Phasar.C68_loop_false",
    "Phasar.C68_store_false",
    "Phasar.C68_undef_false",
    "Phasar.C68_some_path_false"
   ],
   "note": "Exact: C68_results (the variables reported are those with a finite derivation), C68_terminates. C68_paths: reported variables are allocated on every path with no integer constant stored since. Partial: C68_uninit_partial (functions that store constants only), C68_acyclic_partial (functions without cycles: nothing of the kind is missed), C68_cycle (nothing is reported on cycles). False: loops (C68_loop_false), stores of values that are not constants (C68_store_false), undef (C68_undef_false), variables uninitialized on some path only, which the name of the analysis suggests (C68_some_path_false). The solver is that of C23."
  },
  {
   "property": "C69",
   "status": "partial",
   "theorems": [
    "Phasar.C69_results",
    "Phasar.C69_sound_partial",
    "Phasar.C69_cycle",
    "Phasar.C69_alloca",
    "Phasar.C69_load",
    "Phasar.C69_store",
    "Phasar.C69_bin",
    "Phasar.C69_other",
    "Phasar.C69_store_false",
    "Phasar.C69_alias_false",
    "Phasar.C69_call_false",
    "Phasar.C69_width_false",
    "Phasar.C69_unsigned_false",
    "Phasar.C69_loop_false",
    "Phasar.C69_bottom_false"
   ],
   "note": "C69_results (equations the results satisfy), C69_alloca, C69_load, C69_store, C69_bin, C69_other (the flow functions exactly). C69_sound_partial: executions have the reported constants if operands have the right types, integer variables are written through their allocas only and with values the results know, and signed arithmetic stays in range. C69_cycle: nothing from before a cycle is known on it. False in general: C69_store_false, C69_alias_false, C69_call_false, C69_width_false, C69_unsigned_false; imprecise: C69_loop_false, C69_bottom_false. Missing: termination of the solver on this problem."
  },
  {
   "property": "C70",
   "status": "partial",
   "theorems": [
    "Phasar.C70_read",
    "Phasar.C70_category",
    "Phasar.C70_required_false",
    "Phasar.C70_index_false",
    "Phasar.C70_sinks",
    "Phasar.C70_defined",
    "Phasar.C70_marks",
    "Phasar.C70_exact_partial",
    "Phasar.C70_overload_false",
    "Phasar.C70_null_false",
    "Phasar.C70_user_false",
    "Phasar.C70_struct_false",
    "Phasar.C70_mix_false"
   ],
   "note": "C70_read (round trip), C70_category (unknown categories are rejected), C70_defined and C70_marks (when a configuration can be built, and exactly what is marked). C70_exact_partial: the marks are those described if names are unambiguous, the users of functions are their calls and no scope names a struct. False in general: required entries can be missing (C70_required_false), indices are cast (C70_index_false), overloads after the first are dropped (C70_overload_false), null definitions are dereferenced (C70_null_false), all users count as calls (C70_user_false), members of all structs are marked (C70_struct_false), with the categories of all variables (C70_mix_false)."
  },
  {
   "property": "C71",
   "status": "partial",
   "theorems": [
    "Phasar.C71_defined",
    "Phasar.C71_marks",
    "Phasar.C71_local_false",
    "Phasar.C71_global_false",
    "Phasar.C71_prefix_false"
   ],
   "note": "Exact: C71_defined, C71_marks. False: local variables that an argument is assigned to (C71_local_false), annotated global variables (C71_global_false, for all modules with one), prefixes (C71_prefix_false)."
  },
  {
   "property": "C72",
   "status": "partial",
   "theorems": [
    "Phasar.C72_generated_call",
    "Phasar.C72_generated_other",
    "Phasar.C72_leaks",
    "Phasar.C72_defined",
    "Phasar.C72_asks",
    "Phasar.C72_generates_partial",
    "Phasar.C72_generates_false",
    "Phasar.C72_agree",
    "Phasar.C72_callback_false",
    "Phasar.C72_arity_false",
    "Phasar.C72_category",
    "Phasar.C72_seeds"
   ],
   "note": "Exact: C72_generated_call, C72_generated_other, C72_leaks, C72_defined, C72_asks, C72_category, C72_seeds. C72_agree: both ways of asking agree if the call has enough arguments. C72_generates_partial. False: source arguments of calls (C72_generates_false), the sanitizer call-back (C72_callback_false), calls with too few arguments (C72_arity_false)."
  },
  {
   "property": "C73",
   "status": "proved",
   "theorems": [
    "Phasar.SecureHeap.C73_exact",
    "Phasar.SecureHeap.C73_sound",
    "Phasar.SecureHeap.C73_order",
    "Phasar.SecureHeap.C73_terminates",
    "Phasar.SecureHeap.C73_reinit_false",
    "Phasar.SecureHeap.C73_paths_false",
    "Phasar.SecureHeap.C73_indirect_false",
    "Phasar.SecureHeap.C73_noreturn_false"
   ],
   "note": "End to end through the model of the solver: C73_exact (all three answers characterised), C73_sound (executions proper), C73_order, C73_terminates. The intended meaning is false in four ways: a second initialisation is not recognised (C73_reinit_false), INITIALIZED does not mean all executions (C73_paths_false), calls through pointers are not seen (C73_indirect_false), facts are carried over calls that never return (C73_noreturn_false)."
  },
  {
   "property": "C74",
   "status": "partial",
   "theorems": [
    "Phasar.IIA.C74_defined",
    "Phasar.IIA.C74_precise",
    "Phasar.IIA.C74_exact",
    "Phasar.IIA.C74_sound",
    "Phasar.IIA.C74_order",
    "Phasar.IIA.C74_terminates",
    "Phasar.IIA.C74_opaque_false",
    "Phasar.IIA.C74_constop_false",
    "Phasar.IIA.C74_alias_false",
    "Phasar.IIA.C74_function_false",
    "Phasar.IIA.C74_constarg_false",
    "Phasar.IIA.C74_sret_false",
    "Phasar.IIA.C74_meet_false",
    "Phasar.IIA.C74_mixed_false",
    "Phasar.IIA.C74_unresolved_false"
   ],
   "note": "End to end through the model of the solver. For all programs: C74_precise (no label is invented), C74_defined (report_fatal_error is not reached), C74_terminates. Where unknown and known labels do not meet (Sep): C74_exact, C74_order. Executions: C74_sound, for programs without the patterns of the counterexamples. Soundness for all programs is false in nine ways: C74_alias_false, C74_constop_false, C74_function_false, C74_constarg_false, C74_sret_false, C74_opaque_false, C74_meet_false, C74_mixed_false, C74_unresolved_false."
  },
  {
   "property": "C75",
   "status": "partial",
   "theorems": [
    "Phasar.Hexa.C75_get",
    "Phasar.Hexa.C75_sxo_partial",
    "Phasar.Hexa.C75_sxo_first",
    "Phasar.Hexa.C75_sxo_false",
    "Phasar.Hexa.C75_sxo_spurious_false",
    "Phasar.Hexa.C75_ops_false",
    "Phasar.Hexa.C75_put_twice"
   ],
   "note": "C75_get: exact for seven of the eight patterns, all histories. C75_put_twice: idempotent, all databases. The pattern (S, ?, O) is wrong (C75_sxo_false, C75_sxo_spurious_false): exact if no two predicates connect a subject and an object (C75_sxo_partial); otherwise, with ids used up by ignored insertions, exactly the first triple (C75_sxo_first). The index OPS, which no query uses, is wrong (C75_ops_false). SQL statements are modelled by their documented meaning; names are taken literally."
  },
  {
   "property": "C76",
   "status": "proved",
   "theorems": [
    "Phasar.CFLAnders.C76_reach",
    "Phasar.CFLAnders.C76_symm",
    "Phasar.CFLAnders.C76_states",
    "Phasar.CFLAnders.C76_attr",
    "Phasar.CFLAnders.C76_terminates",
    "Phasar.CFLAnders.C76_order",
    "Phasar.CFLAnders.C76_alias_symm",
    "Phasar.CFLAnders.C76_states_symm_false"
   ],
   "note": "Intraprocedural part (calls without summaries). C76_reach, C76_symm, C76_states, C76_attr, C76_terminates, C76_order, C76_alias_symm: all functions and orders. The comment that the set is symmetric is true of the pairs and false of the states (C76_states_symm_false)."
  },
  {
   "property": "C77",
   "status": "partial",
   "theorems": [
    "Phasar.CFLAnders.C77_sound_partial",
    "Phasar.CFLAnders.C77_readonly_false",
    "Phasar.CFLAnders.C77_noalias_false",
    "Phasar.CFLAnders.C77_ptrtoint_false",
    "Phasar.CFLAnders.C77_cmpxchg_false",
    "Phasar.CFLAnders.C77_inttoptr_false"
   ],
   "note": "C77_sound_partial: all executions of functions without ptrtoint, cmpxchg, constant expression inttoptr, calls marked noalias, and read-only calls with pointer argument and result. Each of these exclusions is necessary: C77_readonly_false, C77_noalias_false, C77_ptrtoint_false, C77_cmpxchg_false, C77_inttoptr_false. Objects have one cell each; summaries of callees are not modelled."
  },
  {
   "property": "C78",
   "status": "partial",
   "theorems": [
    "Phasar.Stratified.C78_total",
    "Phasar.Stratified.C78_values",
    "Phasar.Stratified.C78_with",
    "Phasar.Stratified.C78_below",
    "Phasar.Stratified.C78_above",
    "Phasar.Stratified.C78_chains",
    "Phasar.Stratified.C78_labels",
    "Phasar.Stratified.C78_least",
    "Phasar.Stratified.C78_congr_partial",
    "Phasar.Stratified.C78_congr_false",
    "Phasar.Stratified.C78_order_false",
    "Phasar.Stratified.C78_attrs",
    "Phasar.Stratified.C78_compress"
   ],
   "note": "All but the last sentence holds for all histories: C78_total, C78_values, C78_with, C78_below, C78_above, C78_chains, C78_labels, C78_least, C78_attrs; path compression changes nothing (C78_compress). That values put below members of one set are in one set holds if the values have levels that fit the requests (C78_congr_partial); after a merge of a set with the one below it, it is false (C78_congr_false), and the result depends on the order of requests (C78_order_false)."
  },
  {
   "property": "C79",
   "status": "partial",
   "theorems": [
    "Phasar.CFLSteens.C79_total",
    "Phasar.CFLSteens.C79_least",
    "Phasar.CFLSteens.C79_va_partial",
    "Phasar.CFLSteens.C79_over_partial",
    "Phasar.CFLSteens.C79_sound_partial",
    "Phasar.CFLSteens.C79_same_partial",
    "Phasar.CFLSteens.C79_attrs_partial",
    "Phasar.CFLSteens.C79_order_partial",
    "Phasar.CFLSteens.C79_cycle_false",
    "Phasar.CFLSteens.C79_order_false"
   ],
   "note": "C79_total and C79_least hold for all functions and orders. For functions whose values have depths (Depth: no value is assigned to a cell it points to) and without constants like null: C79_va_partial, C79_same_partial, C79_attrs_partial, C79_over_partial, C79_sound_partial, C79_order_partial. Without depths the analysis is unsound (C79_cycle_false) and depends on the order of the hash table (C79_order_false). Summaries of callees are not modelled."
  },
  {
   "property": "C80",
   "status": "partial",
   "theorems": [
    "Phasar.AliasGraph.C80_total_partial",
    "Phasar.AliasGraph.C80_sites_partial",
    "Phasar.AliasGraph.C80_order_partial",
    "Phasar.AliasGraph.C80_introduced_partial",
    "Phasar.AliasGraph.C80_vertices_partial",
    "Phasar.AliasGraph.C80_merge_own_partial",
    "Phasar.AliasGraph.C80_merge_other_partial",
    "Phasar.AliasGraph.C80_alias_false",
    "Phasar.AliasGraph.C80_global_false",
    "Phasar.AliasGraph.C80_label_false",
    "Phasar.AliasGraph.C80_default_false",
    "Phasar.AliasGraph.C80_order_false",
    "Phasar.AliasGraph.C80_merge_false"
   ],
   "note": "C80_sites_partial, C80_order_partial, C80_introduced_partial, C80_vertices_partial, C80_merge_own_partial, C80_merge_other_partial: exact answers for instructions and parameters that are pointers, aliases introduced without an instruction, and an alias analysis that relates only pointers of the function it was asked for. Each restriction is necessary: C80_global_false, C80_default_false, C80_label_false, C80_order_false, C80_merge_false. Alias sets and alias queries fail for every value in every graph: C80_alias_false."
  },
  {
   "property": "C81",
   "status": "partial",
   "theorems": [
    "Phasar.CFG.C81_dot_partial",
    "Phasar.CFG.C81_json_partial",
    "Phasar.CFG.C81_sci_partial",
    "Phasar.CFG.C81_agree_partial",
    "Phasar.CFG.C81_nodes",
    "Phasar.CFG.C81_closed_partial",
    "Phasar.CFG.C81_callbr_false",
    "Phasar.CFG.C81_json_false",
    "Phasar.CFG.C81_sci_false",
    "Phasar.CFG.C81_switch_false",
    "Phasar.CFG.C81_unwind_false"
   ],
   "note": "C81_dot_partial, C81_json_partial, C81_sci_partial, C81_agree_partial, C81_closed_partial, C81_nodes: exact edges and labels, for modules without branches on the initialization of static variables (their successors are C42_lazy). Conditions and why they are needed: no callbr with two successors (C81_callbr_false), debug instructions ignored or none at the start of a function for JSON (C81_json_false), source code information on the first instruction (C81_sci_false). The labels do not tell a switch from a branch (C81_switch_false) nor returns from exceptions (C81_unwind_false)."
  },
  {
   "property": "C82",
   "status": "proved",
   "theorems": [
    "Phasar.MaybeUnique.C82_safe",
    "Phasar.MaybeUnique.C82_owner",
    "Phasar.MaybeUnique.C82_leak",
    "Phasar.MaybeUnique.C82_get",
    "Phasar.MaybeUnique.C82_assign_false",
    "Phasar.MaybeUnique.C82_release_false"
   ],
   "note": "C82_safe, C82_owner, C82_leak, C82_get, for all sequences of operations. Two differences to std::unique_ptr are shown: move assignment exchanges instead of deleting (C82_assign_false), and a released pointer is not null (C82_release_false). Not modelled: reset(MaybeUniquePtr<TT> &&) with TT other than T, which does not compile, and destructors of objects that use the pointers."
  },
  {
   "property": "C83",
   "status": "partial",
   "theorems": [
    "Phasar.InterTaint.C83_flows",
    "Phasar.InterTaint.C83_config",
    "Phasar.InterTaint.C83_distributive",
    "Phasar.InterTaint.C83_monotone",
    "Phasar.InterTaint.C83_sound_partial",
    "Phasar.InterTaint.C83_leak_partial",
    "Phasar.InterTaint.C83_leak_exact",
    "Phasar.InterTaint.C83_result_partial",
    "Phasar.InterTaint.C83_static",
    "Phasar.InterTaint.C83_op_false",
    "Phasar.InterTaint.C83_pointer_false",
    "Phasar.InterTaint.C83_alias_false",
    "Phasar.InterTaint.C83_declaration_false",
    "Phasar.InterTaint.C83_vararg_false",
    "Phasar.InterTaint.C83_global_false",
    "Phasar.InterTaint.C83_main_false",
    "Phasar.InterTaint.C83_arity"
   ],
   "note": "C83_flows and C83_config say exactly what the flow functions compute, C83_distributive and C83_monotone that they suit the solver, C83_leak_exact what is recorded. Soundness against executions is C83_sound_partial, C83_leak_partial, C83_result_partial, for programs that are fit (C83_static gives a criterion on the text). The full claim is false: computations (C83_op_false), tainted pointers (C83_pointer_false), aliases (C83_alias_false), globals (C83_global_false), pointers passed to declared functions (C83_declaration_false) or as variadic arguments (C83_vararg_false). C83_main_false and C83_arity say when the code is undefined. C83_result_partial also assumes that the solver's map satisfies the inequalities, which C24 shows to fail at times."
  },
  {
   "property": "C84",
   "status": "partial",
   "theorems": [
    "Phasar.Pamm.C84_timer",
    "Phasar.Pamm.C84_elapsed",
    "Phasar.Pamm.C84_export_partial",
    "Phasar.Pamm.C84_export_false",
    "Phasar.Pamm.C84_protocol",
    "Phasar.Pamm.C84_counter",
    "Phasar.Pamm.C84_sum",
    "Phasar.Pamm.C84_histogram"
   ],
   "note": "C84_timer, C84_elapsed, C84_protocol, C84_counter, C84_sum, C84_histogram for all histories. The export is complete for timers that were not both paused and stopped (C84_export_partial); for those that were, the last interval is lost (C84_export_false). Not modelled: the printed text, a clock that runs backwards."
  },
  {
   "property": "C85",
   "status": "partial",
   "theorems": [
    "Phasar.GLCA.GProg.C85_normal",
    "Phasar.GLCA.GProg.C85_callee",
    "Phasar.GLCA.GProg.C85_callee_undefined",
    "Phasar.GLCA.GProg.C85_caller",
    "Phasar.GLCA.GProg.C85_caller_undefined",
    "Phasar.GLCA.GProg.C85_sound_partial",
    "Phasar.GLCA.GProg.C85_reached",
    "Phasar.GLCA.GProg.C85_result_partial",
    "Phasar.GLCA.GProg.C85_edge_initial",
    "Phasar.GLCA.GProg.C85_edge_keep",
    "Phasar.GLCA.GProg.C85_edge_copy",
    "Phasar.GLCA.GProg.C85_edge_store",
    "Phasar.GLCA.GProg.C85_edge_cast",
    "Phasar.GLCA.GProg.C85_edge_bin",
    "Phasar.GLCA.GProg.C85_edge_call",
    "Phasar.GLCA.GProg.C85_edge_ret",
    "Phasar.GLCA.GProg.C85_call_to_return",
    "Phasar.GLCA.GProg.C85_string_constructor",
    "Phasar.GLCA.GProg.C85_string_unknown",
    "Phasar.GLCA.GProg.C85_string_callee",
    "Phasar.GLCA.GProg.C85_seeds",
    "Phasar.GLCA.GProg.C85_constant",
    "Phasar.GLCA.GProg.C85_constant_value",
    "Phasar.GLCA.GProg.C85_constant_read",
    "Phasar.GLCA.GProg.C85_global_false",
    "Phasar.GLCA.GProg.C85_merge_false",
    "Phasar.GLCA.GProg.C85_loop_false",
    "Phasar.GLCA.GProg.C85_printf_false",
    "Phasar.GLCA.GProg.C85_array_false",
    "Phasar.GLCA.GProg.C85_offset_false",
    "Phasar.GLCA.GProg.C85_resume_false",
    "Phasar.GLCA.GProg.C85_element_false"
   ],
   "note": "Exact flows (C85_normal, C85_callee, C85_caller with the exact conditions of undefined behaviour, C85_call_to_return, C85_string_constructor, C85_seeds, C85_constant) and exact edges (C85_edge_*). C85_sound_partial, C85_reached, C85_result_partial: executions are covered by realizable runs, for programs that satisfy WF and tracked values. Missing: tracked values of casts, address computations and floating-point arithmetic; memory accessed other than by name; the link to the solver's tables. False in general: C85_global_false, C85_merge_false, C85_loop_false, C85_printf_false, C85_array_false, C85_offset_false, C85_resume_false, C85_element_false."
  },
  {
   "property": "C86",
   "status": "partial",
   "theorems": [
    "Phasar.InterConst.C86_call",
    "Phasar.InterConst.C86_call_undefined",
    "Phasar.InterConst.C86_return",
    "Phasar.InterConst.C86_return_undefined",
    "Phasar.InterConst.C86_solver",
    "Phasar.InterConst.C86_past",
    "Phasar.InterConst.C86_edge",
    "Phasar.InterConst.C86_join",
    "Phasar.InterConst.C86_sound_partial",
    "Phasar.InterConst.C86_two_returns_false",
    "Phasar.InterConst.C86_pointer_false",
    "Phasar.InterConst.C86_returned_false"
   ],
   "note": "Exact flows: C86_call, C86_return, C86_past, C86_edge, C86_solver, with the exact conditions of undefined behaviour C86_call_undefined, C86_return_undefined. C86_join: at joins nothing is ever known, in any state of the solver. C86_sound_partial: the facts along an execution hold in it, in all frames, for programs without pointer arguments, with known stored values, arithmetic in range and callees that leave the caller's variables alone. Missing: the solver's tables, for which it is false: C86_two_returns_false, C86_pointer_false, C86_returned_false."
  },
  {
   "property": "C87",
   "status": "partial",
   "theorems": [
    "Phasar.Stats.C87_report",
    "Phasar.Stats.C87_sets",
    "Phasar.Stats.C87_undefined",
    "Phasar.Stats.C87_text",
    "Phasar.Stats.C87_indent",
    "Phasar.Stats.C87_aligned",
    "Phasar.Stats.C87_max",
    "Phasar.Stats.C87_max_partial",
    "Phasar.Stats.C87_address_taken",
    "Phasar.Stats.C87_address_taken_partial",
    "Phasar.Stats.C87_max_false",
    "Phasar.Stats.C87_address_taken_false",
    "Phasar.Stats.C87_rerun"
   ],
   "note": "Exact for all modules: C87_report (JSON), C87_text, C87_sets, C87_undefined, C87_indent, C87_aligned, C87_rerun. The claim about maxima is false (C87_max_false); what is reported instead is exactly C87_max, and C87_max_partial bounds it. The claim about address-taken functions is false for functions passed to themselves (C87_address_taken_false); C87_address_taken is what is counted, C87_address_taken_partial the claim for all other functions."
  },
  {
   "property": "C88",
   "status": "partial",
   "theorems": [
    "Phasar.IRToSrc.C88_intrinsic",
    "Phasar.IRToSrc.C88_name",
    "Phasar.IRToSrc.C88_location",
    "Phasar.IRToSrc.C88_agree",
    "Phasar.IRToSrc.C88_file_partial",
    "Phasar.IRToSrc.C88_path",
    "Phasar.IRToSrc.C88_context",
    "Phasar.IRToSrc.C88_trim",
    "Phasar.IRToSrc.C88_source",
    "Phasar.IRToSrc.C88_info",
    "Phasar.IRToSrc.C88_json",
    "Phasar.IRToSrc.C88_json_read",
    "Phasar.IRToSrc.C88_json_eq",
    "Phasar.IRToSrc.C88_eq",
    "Phasar.IRToSrc.C88_equivalent",
    "Phasar.IRToSrc.C88_equivalent_partial",
    "Phasar.IRToSrc.C88_file_false",
    "Phasar.IRToSrc.C88_json_false",
    "Phasar.IRToSrc.C88_equivalent_false"
   ],
   "note": "Exact for all values: C88_intrinsic, C88_name, C88_location, C88_agree, C88_path, C88_context, C88_source, C88_trim, C88_info. The file is that of the location except for instructions with other metadata users (C88_file_partial, C88_file_false). The function name is lost in JSON (C88_json_false; exactly what is written and read: C88_json, C88_json_read, C88_json_eq). Equivalence is exactly C88_equivalent, which is not the claim (C88_equivalent_false, C88_equivalent_partial)."
  },
  {
   "property": "C89",
   "status": "proved",
   "theorems": [
    "Phasar.SolverConfig.C89_bits",
    "Phasar.SolverConfig.C89_has",
    "Phasar.SolverConfig.C89_set",
    "Phasar.SolverConfig.C89_config",
    "Phasar.SolverConfig.C89_initial",
    "Phasar.SolverConfig.C89_print_partial",
    "Phasar.SolverConfig.C89_print_false"
   ],
   "note": "C89_bits, C89_has, C89_set for flag words of any width; C89_config for all sequences of calls; C89_initial. Beyond the property: what operator<< writes (C89_print_partial) and that it writes the first option as a digit (C89_print_false)."
  },
  {
   "property": "C90",
   "status": "proved",
   "theorems": [
    "Phasar.EntryPoints.C90_order",
    "Phasar.EntryPoints.C90_default",
    "Phasar.EntryPoints.C90_add",
    "Phasar.EntryPoints.C90_lca",
    "Phasar.EntryPoints.C90_lca_undefined",
    "Phasar.EntryPoints.C90_glca",
    "Phasar.EntryPoints.C90_iia",
    "Phasar.EntryPoints.C90_taint",
    "Phasar.EntryPoints.C90_xtaint",
    "Phasar.EntryPoints.C90_taint_all_false",
    "Phasar.EntryPoints.C90_all_false"
   ],
   "note": "C90_order (which start points, in which order); exact seeds: C90_default, C90_add, C90_lca, C90_glca, C90_iia, C90_taint, C90_xtaint. Beyond the property: C90_lca_undefined (exactly when the assertion of getSExtValue fails), C90_taint_all_false and C90_all_false (what __ALL__ does not do)."
  },
  {
   "property": "C91",
   "status": "partial",
   "theorems": [
    "Phasar.CFG.C91_backward_wf",
    "Phasar.CFG.C91_backward_queries",
    "Phasar.CFG.C91_backward_start",
    "Phasar.CFG.C91_backward_wfv_false",
    "Phasar.CFG.C91_backward_none",
    "Phasar.CFG.C91_backward_false",
    "Phasar.CFG.C91_wf",
    "Phasar.CFG.C91_unique",
    "Phasar.CFG.C91_queries_partial",
    "Phasar.CFG.C91_visible",
    "Phasar.CFG.C91_wfv",
    "Phasar.CFG.C91_wfv_all",
    "Phasar.CFG.C91_ifds",
    "Phasar.CFG.C91_ide"
   ],
   "note": "Forward graph: C91_wf, C91_unique, C91_wfv discharge the graph assumptions of the solver theorems on the statements that are no debug instructions (C91_visible: nothing else is reached), C91_wfv_all says exactly when they hold on all instructions, C91_queries_partial gives the answers of each query (missing: successors of lazy-initialization branches, see C42_lazy), C91_ifds and C91_ide combine them with C01 and C02. Backward graph: C91_backward_wf, C91_backward_queries, C91_backward_start hold; the rest is false: C91_backward_wfv_false (every program), C91_backward_none (no values at first instructions, all IDE problems), C91_backward_false (an IFDS problem with missing results)."
  },
  {
   "property": "C92",
   "status": "partial",
   "theorems": [
    "Phasar.LibSummary.C92_libc",
    "Phasar.LibSummary.C92_libc_known",
    "Phasar.LibSummary.C92_get_false",
    "Phasar.LibSummary.C92_libc_noop",
    "Phasar.LibSummary.C92_libc_variants_partial",
    "Phasar.LibSummary.C92_libc_variants_false",
    "Phasar.LibSummary.C92_libc_strings",
    "Phasar.LibSummary.C92_libc_missing_false",
    "Phasar.LibSummary.C92_libc_copy_false",
    "Phasar.LibSummary.C92_libc_snprintf_false",
    "Phasar.LibSummary.C92_libc_flow_false",
    "Phasar.LibSummary.C92_facts",
    "Phasar.LibSummary.C92_known",
    "Phasar.LibSummary.C92_get",
    "Phasar.LibSummary.C92_read",
    "Phasar.LibSummary.C92_query",
    "Phasar.LibSummary.C92_flow",
    "Phasar.LibSummary.C92_flow_variadic"
   ],
   "note": "Holds: C92_facts, C92_known, C92_read, C92_query (LLVMFunctionDataFlowFacts), C92_flow (exact, including when it fails), C92_flow_variadic, C92_libc, C92_libc_known, C92_libc_noop, C92_libc_variants_partial (94 functions), C92_libc_strings (exact entries of 62 string functions). False: getDataFlowFacts is undefined for a known function and a parameter without entry (C92_get says exactly when, C92_get_false), the flow is undefined for some calls of snprintf, fscanf, sscanf (C92_libc_flow_false), nothing flows to the buffer of snprintf (C92_libc_snprintf_false), a copying function such as strcpy does not taint the pointer it returns (C92_libc_copy_false, exact), strchr, atoi, sprintf and others are missing (C92_libc_missing_false), 11 mathematical functions have variants with other entries (C92_libc_variants_false)."
  },
  {
   "property": "C93",
   "status": "partial",
   "theorems": [
    "Phasar.Helper.C93_answer",
    "Phasar.Helper.C93_stable",
    "Phasar.Helper.C93_once",
    "Phasar.Helper.C93_lazy",
    "Phasar.Helper.C93_cfg",
    "Phasar.Helper.C93_cfg_false",
    "Phasar.Helper.C93_destroy"
   ],
   "note": "C93_answer, C93_stable, C93_once, C93_lazy (exact), C93_destroy hold for all configurations and sequences. Independence of the order is false for getCFG only (C93_cfg says exactly what it returns, C93_cfg_false)."
  },
  {
   "property": "C94",
   "status": "partial",
   "theorems": [
    "Phasar.Config.C94_parse",
    "Phasar.Config.C94_empty",
    "Phasar.Config.C94_empty_false",
    "Phasar.Config.C94_star_false",
    "Phasar.Config.C94_names"
   ],
   "note": "C94_parse, C94_empty, C94_names are exact for all texts and file systems. That no empty name is loaded is false (C94_empty_false); so is that every listed function becomes special (C94_star_false)."
  },
  {
   "property": "C95",
   "status": "partial",
   "theorems": [
    "Phasar.EnumStr.C95_switch",
    "Phasar.EnumStr.C95_dfa",
    "Phasar.EnumStr.C95_cga",
    "Phasar.EnumStr.C95_aa",
    "Phasar.EnumStr.C95_strat",
    "Phasar.EnumStr.C95_snd",
    "Phasar.EnumStr.C95_smf",
    "Phasar.EnumStr.C95_alias",
    "Phasar.EnumStr.C95_alias_false",
    "Phasar.EnumStr.C95_distinct"
   ],
   "note": "C95_switch, C95_dfa, C95_cga, C95_aa, C95_strat, C95_snd, C95_smf, C95_distinct hold for all strings and values. For AliasResult the round trip is false (C95_alias, C95_alias_false). Values outside of an enumeration are not modelled. These theorems were not mutation-tested."
  }
 ]
}