{
 "claims": [
  {
   "property": "C01",
   "status": "proved",
   "theorems": [
    "Region.Props.c01_is_connected",
    "Region.Props.c01_empty"
   ],
   "note": "full statement; any graph"
  },
  {
   "property": "C02",
   "status": "proved",
   "theorems": [
    "Region.Props.c02_sub_adj_matrix",
    "Region.Props.c02_neighbors",
    "Region.Props.c02_contiguity_check"
   ],
   "note": "full statement"
  },
  {
   "property": "C03",
   "status": "proved",
   "theorems": [
    "Region.Props.c03_separate_components"
   ],
   "note": "full statement"
  },
  {
   "property": "C04",
   "status": "proved",
   "theorems": [
    "Region.Props.c04_assert_feasible_ok",
    "Region.Props.c04_assert_feasible_raises",
    "Region.Props.c04_boolean_assert_feasible",
    "Region.Props.c04_message_counts_areas"
   ],
   "note": "full statement; the last theorem records that the error message reports the number of areas"
  },
  {
   "property": "C05",
   "status": "proved",
   "theorems": [
    "Region.Props.c05_distribute"
   ],
   "note": "full statement, all random draws"
  },
  {
   "property": "C06",
   "status": "proved",
   "theorems": [
    "Region.Props.c06_randomly_divide",
    "Region.Props.c06_rejects"
   ],
   "note": "full statement, all random draws and all tie orders of the spanning tree"
  },
  {
   "property": "C07",
   "status": "proved",
   "theorems": [
    "Region.Props.c07_generate_initial_sol",
    "Region.Props.c07_rejects",
    "Region.Props.c07_nComponents"
   ],
   "note": "for n_regions other than 1; the case n_regions = 1 is C08"
  },
  {
   "property": "C08",
   "status": "partial",
   "theorems": [
    "Region.Props.c08_single_region_raises",
    "Region.Props.c08_single_region_partial"
   ],
   "note": "false as stated: TypeError on every non-empty graph without initial_labels; holds when the one-region labels are given"
  },
  {
   "property": "C09",
   "status": "proved",
   "theorems": [
    "Region.Props.c09_array_from_region_list"
   ],
   "note": "full statement"
  },
  {
   "property": "C10",
   "status": "proved",
   "theorems": [
    "Region.Props.c10_index",
    "Region.Props.c10_sublist"
   ],
   "note": "full statement"
  },
  {
   "property": "C100",
   "status": "partial",
   "theorems": [
    "Region.Props.c100_returns_partial",
    "Region.Props.c100_trace_false",
    "Region.Props.c100_raises",
    "Region.Props.c100_raises_trace_false",
    "Region.Props.c100_outcome",
    "Region.Props.c100_score_labels",
    "Region.Props.c100_score_errors",
    "Region.Props.c100_score",
    "Region.Props.c100_make_cut_unfitted",
    "Region.Props.c100_make_cut_false",
    "Region.Props.c100_make_cut_refused"
   ],
   "note": "Labels and forest: proved. False: _trace survives a fit without trace and is lost by a failing traced fit; make_cut on the object's forest leaves stale labels."
  },
  {
   "property": "C101",
   "status": "partial",
   "theorems": [
    "Region.Props.c101_terminates_partial",
    "Region.Props.c101_endless"
   ],
   "note": "Proved for dissimilarities without ties (TieFree), any max_iterations, with an explicit bound on the runs of AZP per round; c101_endless proves the statement false for data with ties (a tape on which fit never returns)."
  },
  {
   "property": "C102",
   "status": "proved",
   "theorems": [
    "Region.Props.c102_find_cut",
    "Region.Props.c102_find_cut_target",
    "Region.Props.c102_fit",
    "Region.Props.c102_trace"
   ],
   "note": "For every dissimilarity with centre and reduction that see no difference in equal rows (the defaults are shown to be of this kind)."
  },
  {
   "property": "C103",
   "status": "proved",
   "theorems": [
    "Region.Props.c103_component",
    "Region.Props.c103_fit",
    "Region.Props.c103_maxp_component",
    "Region.Props.c103_maxp_fit"
   ],
   "note": "start clusterings without the label -1; objective with exact updates (component), pairwise with a symmetric metric vanishing on the diagonal (fit); Spec: Zoned, OnePass in SpecAzp.lean"
  },
  {
   "property": "C104",
   "status": "proved",
   "theorems": [
    "Region.Props.c104_azp",
    "Region.Props.c104_is_connected",
    "Region.Props.c104_assert_feasible",
    "Region.Props.c104_objective",
    "Region.Props.c104_draws_matter"
   ],
   "note": "c104_draws_matter: with the same draws the result does depend on the numbering"
  },
  {
   "property": "C105",
   "status": "proved",
   "theorems": [
    "Region.Props.c105_starts",
    "Region.Props.c105_fit",
    "Region.Props.c105_azp_any",
    "Region.Props.c105_basic_tabu_any",
    "Region.Props.c105_reactive_tabu_any",
    "Region.Props.c105_trees",
    "Region.Props.c105_not_all"
   ],
   "note": "Exact set of starts and its size, exact results of fit without initial labels; all contiguous clusterings on maps without cycles; witness around a lake for every order of equal weights. The theorems c105_*_any reduce every method without initial labels to itself with a cut as start."
  },
  {
   "property": "C106",
   "status": "proved",
   "theorems": [
    "Region.Props.c106_divide",
    "Region.Props.c106_unbalanced",
    "Region.Props.c106_balanced"
   ],
   "note": "Result as a function of the draws, with the size of the largest piece specified by reachability; two concrete runs."
  },
  {
   "property": "C107",
   "status": "proved",
   "theorems": [
    "Region.Props.c107_no_detour",
    "Region.Props.c107_forest",
    "Region.Props.c107_fit",
    "Region.Props.c107_orders",
    "Region.Props.c107_ties_matter"
   ],
   "note": "AllDifferent and NoEqualCuts are the no-ties hypotheses, met by ring4_no_ties; c107_ties_matter shows that they cannot be dropped."
  },
  {
   "property": "C108",
   "status": "partial",
   "theorems": [
    "Region.Props.c108_copy",
    "Region.Props.c108_copy_matters",
    "Region.Props.c108_alias_partial",
    "Region.Props.c108_original",
    "Region.Props.c108_no_fit",
    "Region.Props.c108_not_all",
    "Region.Props.c108_inherited",
    "Region.Props.c108_stale",
    "Region.Props.c108_overridden"
   ],
   "note": "False as stated: AZPSimulatedAnnealing has no fit, and a subclass overriding fit_from_scipy_sparse_matrix keeps the old code as fit (both proved). Proved: the alias for all seven other classes and all their subclasses that define neither name; copy_func changes no other function."
  },
  {
   "property": "C109",
   "status": "proved",
   "theorems": [
    "Region.Props.c109_forward",
    "Region.Props.c109_value",
    "Region.Props.c109_start",
    "Region.Props.c109_annealing",
    "Region.Props.c109_uninitialised"
   ],
   "note": "For any number of decorators and any decorated object."
  },
  {
   "property": "C11",
   "status": "proved",
   "theorems": [
    "Region.Props.c11_count"
   ],
   "note": "full statement"
  },
  {
   "property": "C110",
   "status": "proved",
   "theorems": [
    "Region.Props.c110_equal",
    "Region.Props.c110_empty"
   ],
   "note": "Entries are rationals; the empty array has no maximum, hence the ValueError."
  },
  {
   "property": "C111",
   "status": "proved",
   "theorems": [
    "Region.Props.c111_grow_regions",
    "Region.Props.c111_assign_enclaves",
    "Region.Props.c111_ends_aside",
    "Region.Props.c111_joins",
    "Region.Props.c111_least"
   ],
   "note": "both directions: every run gives an outcome of the described procedure, and every such outcome is the outcome of a run; c111_least is a case in which an outcome is impossible"
  },
  {
   "property": "C112",
   "status": "proved",
   "theorems": [
    "Region.Props.c112_fit",
    "Region.Props.c112_path"
   ],
   "note": "both directions; uses C111 for the construction and the C103 machinery, extended to nested decorators, for the local search"
  },
  {
   "property": "C113",
   "status": "proved",
   "theorems": [
    "Region.Props.c113_maxp"
   ],
   "note": "corollary of C112: every notion of the specification is carried along an equivalence"
  },
  {
   "property": "C114",
   "status": "partial",
   "theorems": [
    "Region.Props.c114_reactive_is_descent",
    "Region.Props.c114_reactive_partial",
    "Region.Props.c114_sideways",
    "Region.Props.c114_basic_partial",
    "Region.Props.c114_basic_not_optimal",
    "Region.Props.c114_fit_partial"
   ],
   "note": "false as stated (two witnesses: default tabu length of the basic search; a value-neutral first move of the reactive search); the reactive search is proved to be steepest descent, and the basic search to end in a local optimum of the whole map for tabu lists of length 0 and 1"
  },
  {
   "property": "C115",
   "status": "partial",
   "theorems": [
    "Region.Props.c115_flow_labels",
    "Region.Props.c115_flow_partial",
    "Region.Props.c115_flow_lost",
    "Region.Props.c115_order_labels",
    "Region.Props.c115_order_partial",
    "Region.Props.c115_order_lost",
    "Region.Props.c115_tree_partial",
    "Region.Props.c115_tree_exactly",
    "Region.Props.c115_tree_lost",
    "Region.Props.c115_maxp_labels",
    "Region.Props.c115_maxp_partial",
    "Region.Props.c115_maxp_lost",
    "Region.Props.c115_round",
    "Region.Props.c115_witness"
   ],
   "note": "false: the code tests varValue == 1.  The labels are right exactly if every value placing an area outside region 0 is exactly 1 (flow, order, max-p), and for the tree method exactly if the value of every pair of areas sharing a region is exactly 1; for every positive tolerance and every solution there are values within it for which all areas get label 0 (flow, order, max-p) or the array has only n_regions entries (tree).  Rounding first would repair it (c115_round)"
  },
  {
   "property": "C116",
   "status": "proved",
   "theorems": [
    "Region.Props.c116_order",
    "Region.Props.c116_flow",
    "Region.Props.c116_tree",
    "Region.Props.c116_fit_order",
    "Region.Props.c116_fit_tree",
    "Region.Props.c116_fit_flow",
    "Region.Props.c116_agree",
    "Region.Props.c116_names",
    "Region.Props.c116_renumber",
    "Region.Props.c116_maxp",
    "Region.Props.c116_fit_maxp",
    "Region.Props.c116_solver_matters"
   ],
   "note": "the dissimilarities are those the code computes (columnD, see C55); the tree method can also raise KeyError when dissimilarities vanish (c54_tree_merges)"
  },
  {
   "property": "C117",
   "status": "proved",
   "theorems": [
    "Region.Props.c117_azp",
    "Region.Props.c117_basic",
    "Region.Props.c117_reactive",
    "Region.Props.c117_maxp"
   ],
   "note": "A second model of the searches keeps arrays at addresses of a memory (Model/Memory.lean); it ends like the model on values, no array existing before is changed and labels_ is at a new address, for every memory and every outcome."
  },
  {
   "property": "C118",
   "status": "partial",
   "theorems": [
    "Region.Props.c118_annealing_partial",
    "Region.Props.c118_shared"
   ],
   "note": "Exact: labels_ is new if nonmoving_steps_before_stop and max_iterations are positive and is the caller's own array otherwise (witness c118_shared). No array of the caller is changed in either case."
  },
  {
   "property": "C119",
   "status": "partial",
   "theorems": [
    "Region.Props.c119_update_partial",
    "Region.Props.c119_changed"
   ],
   "note": "Exact: what update leaves in the array for every call; it is changed exactly when the only area of a region is moved to another region that has areas (witness c119_changed)."
  },
  {
   "property": "C12",
   "status": "partial",
   "theorems": [
    "Region.Props.c12_default",
    "Region.Props.c12_keys_partial",
    "Region.Props.c12_flat",
    "Region.Props.c12_exactly",
    "Region.Props.c12_subset_raises",
    "Region.Props.c12_subset_reshaped",
    "Region.Props.c12_repeated_merged",
    "Region.Props.c12_missing"
   ],
   "note": "Holds for the default order and for key sequences as long as the dict; c12_exactly shows it fails for every other length (the code reshapes to len(dct)), with witnesses for a ValueError, split rows and merged rows."
  },
  {
   "property": "C120",
   "status": "proved",
   "theorems": [
    "Region.Props.c120_any",
    "Region.Props.c120_azp",
    "Region.Props.c120_annealing"
   ],
   "note": "Model/Arith.lean makes every operation of the strategy objects on numbers a parameter; azpFitIn_exact and saFitIn_exact say that exact arithmetic gives the model used elsewhere. nan and inf are not modelled; the temperature is only seen through the acceptance probability, which is an arbitrary function."
  },
  {
   "property": "C121",
   "status": "partial",
   "theorems": [
    "Region.Props.c121_potential_partial",
    "Region.Props.c121_linear_partial",
    "Region.Props.c121_mean",
    "Region.Props.c121_endless"
   ],
   "note": "False for reduction=max in exact arithmetic (c121_endless: six areas in a row, periodic draws). By C120 it would end with machine numbers, after as many passes as it takes the stored value to stop changing. Missing: exactly those reductions without a potential."
  },
  {
   "property": "C122",
   "status": "partial",
   "theorems": [
    "Region.Props.c122_neighbors",
    "Region.Props.c122_checks_partial",
    "Region.Props.c122_alike_partial",
    "Region.Props.c122_start_partial",
    "Region.Props.c122_stored_zero",
    "Region.Props.c122_too_many",
    "Region.Props.c122_generate"
   ],
   "note": "Matrices without explicitly stored zeros only; false with stored zeros (c122_stored_zero, c122_too_many, c122_generate). What scipy does with stored zeros is assumed (DESIGN.md)."
  },
  {
   "property": "C123",
   "status": "proved",
   "theorems": [
    "Region.Props.c123_listed",
    "Region.Props.c123_weights"
   ],
   "note": "What libpysal does on W.transform = 'b' is assumed."
  },
  {
   "property": "C124",
   "status": "partial",
   "theorems": [
    "Region.Props.c124_unchanged_partial",
    "Region.Props.c124_changed",
    "Region.Props.c124_witness"
   ],
   "note": "False: W is left alone only if the metric raises; otherwise it is binary afterwards (c124_changed, c124_witness)."
  },
  {
   "property": "C125",
   "status": "partial",
   "theorems": [
    "Region.Props.c125_fit_partial",
    "Region.Props.c125_value_partial",
    "Region.Props.c125_breaks",
    "Region.Props.c125_annealing_raises",
    "Region.Props.c125_grow_raises",
    "Region.Props.c125_order_incomplete",
    "Region.Props.c24_fit_terminates",
    "Region.Props.c34_result_feasible",
    "Region.Props.c37_fresh_result",
    "Region.Props.c50_order_sound"
   ],
   "note": "Missing: contiguity after AZP, which fails (c125_breaks). c24_fit_terminates, c34_result_feasible, c37_fresh_result and c50_order_sound assume no symmetry."
  },
  {
   "property": "C126",
   "status": "partial",
   "theorems": [
    "Region.Props.c126_region_list",
    "Region.Props.c126_test",
    "Region.Props.c126_compare_partial",
    "Region.Props.c126_repetition_accepted"
   ],
   "note": "Proved for every labelling, and for the two functions as the tests combine them. False for compare_region_lists alone: lists with repetitions (witness c126_repetition_accepted)."
  },
  {
   "property": "C127",
   "status": "partial",
   "theorems": [
    "Region.Props.c127_azp",
    "Region.Props.c127_azp_start",
    "Region.Props.c127_order",
    "Region.Props.c127_tree",
    "Region.Props.c127_flow",
    "Region.Props.c127_basic",
    "Region.Props.c127_reactive",
    "Region.Props.c127_reactive_wrong",
    "Region.Props.c127_reactive_seed",
    "Region.Props.c127_maxp_heu",
    "Region.Props.c127_maxp_exact",
    "Region.Props.c127_annealing",
    "Region.Props.c127_annealing_seed"
   ],
   "note": "Proved for AZP, the exact methods, the basic tabu search, the reactive tabu search from six iterations on, both max-p methods, and simulated annealing if no random number is 0.0 (c127_annealing; lo = 2^-53 bounds exp(-255.9)). False for the reactive tabu search with max_iterations=5 (c127_reactive_wrong, c127_reactive_seed) and for simulated annealing with zeros among the random numbers (c127_annealing_seed)."
  },
  {
   "property": "C128",
   "status": "proved",
   "theorems": [
    "Region.Props.c128_fit",
    "Region.Props.c128_sound",
    "Region.Props.c128_complete",
    "Region.Props.c128_cold",
    "Region.Props.c128_scratch",
    "Region.Props.c128_islands",
    "Region.Props.c128_islands_scratch"
   ],
   "note": "The described procedure is Spec.Annealed (SpecAnneal.lean). exp is an arbitrary function; random() is a multiple of 2^-53 in [0,1), so a move is passed over iff exp(-d/t) <= 1 - 2^-53. sa_moves_term is a positive integer, as the constructor demands. c128_cold needs all random numbers of the tape to be at least lo, and a connected map. The scratch theorems are the versions without initial labels, for two or more regions. The island theorems are for the pairwise objective."
  },
  {
   "property": "C129",
   "status": "proved",
   "theorems": [
    "Region.Props.c129_draws",
    "Region.Props.c129_failing",
    "Region.Props.c129_feasible",
    "Region.Props.c129_one_area"
   ],
   "note": "The tests depend on their draws: 1000 of the 10^15 sequences of draws make them fail (the seed is not fixed in these tests)."
  },
  {
   "property": "C13",
   "status": "proved",
   "theorems": [
    "Region.Props.c13_entries",
    "Region.Props.c13_key_error"
   ],
   "note": "Keys of any linear order; the dict is modelled as a list of items without repeated keys."
  },
  {
   "property": "C130",
   "status": "proved",
   "theorems": [
    "Region.Props.c130_component",
    "Region.Props.c130_fit",
    "Region.Props.c130_scratch",
    "Region.Props.c130_no_tabu",
    "Region.Props.c130_chance"
   ],
   "note": "Exact description (iff) of the reachable results; SpecTabuRun.lean is the independent specification."
  },
  {
   "property": "C131",
   "status": "proved",
   "theorems": [
    "Region.Props.c131_component_any",
    "Region.Props.c131_fit_any",
    "Region.Props.c131_component",
    "Region.Props.c131_fit",
    "Region.Props.c131_scratch",
    "Region.Props.c131_chance_free",
    "Region.Props.c131_islands",
    "Region.Props.c131_islands_scratch",
    "Region.Props.c131_no_rounds"
   ],
   "note": "Exact: result iff described, AttributeError iff described, ValueError iff described, nothing else. New objects; the independent specifications are SpecReactRun.lean and SpecReactIslands.lean."
  },
  {
   "property": "C132",
   "status": "proved",
   "theorems": [
    "Region.Props.c132_fit",
    "Region.Props.c132_search",
    "Region.Props.c132_start",
    "Region.Props.c132_refused",
    "Region.Props.c132_blocked"
   ],
   "note": "c132_fit: fit of the heuristic ends with L for some bound on the rounds and some random numbers iff L is a result of the description; c132_start: the local search alone; c132_refused: a refused best move at the start ends the search; c132_blocked: a concrete run of the whole heuristic that leaves a permitted improvement undone which the default local search makes."
  },
  {
   "property": "C133",
   "status": "partial",
   "theorems": [
    "Region.Props.c133_basic_tabu_partial",
    "Region.Props.c133_annealing",
    "Region.Props.c133_annealing_unlimited_partial",
    "Region.Props.c133_reactive_ends",
    "Region.Props.c133_reactive_raises",
    "Region.Props.c133_endless"
   ],
   "note": "False as stated: c133_endless proves that on the star with equal attributes the heuristic with the basic tabu search never returns, for all draws, tabu lengths and repetitions; c133_reactive_raises that with the reactive tabu search it raises whenever every area reaches the thresholds alone. Proved: data without ties for the basic tabu search (with an explicit bound on the number of rounds; result contiguous, right number of regions, thresholds reached) and for annealing without limit; every exact objective and any data for annealing with a limit; the reactive search never hangs. The threshold can be missed with annealing (C45)."
  },
  {
   "property": "C134",
   "status": "partial",
   "theorems": [
    "Region.Props.c134_labels_partial",
    "Region.Props.c134_alike_partial",
    "Region.Props.c134_connected_partial",
    "Region.Props.c134_scratch_partial",
    "Region.Props.c134_zeros_dropped",
    "Region.Props.c134_weights_matter",
    "Region.Props.c134_stored_zero"
   ],
   "note": "False as stated: c134_weights_matter (no initial labels, same draws, different clusterings) and c134_stored_zero (a stored zero makes AZP break a region). Proved: equality of the complete runs of all four classes from given labels for all matrices without stored zeros; equality up to the order of the links from scratch on connected maps; feasibility from scratch on every map; feasibility with any matrix if indexing drops stored zeros."
  },
  {
   "property": "C135",
   "status": "partial",
   "theorems": [
    "Region.Props.c135_permuted",
    "Region.Props.c135_constant",
    "Region.Props.c135_azp",
    "Region.Props.c135_maxp",
    "Region.Props.c135_skater",
    "Region.Props.c135_maxp_exact",
    "Region.Props.c135_exact_permuted",
    "Region.Props.c135_exact_shift_partial",
    "Region.Props.c135_exact_constant"
   ],
   "note": "False as stated for PRegionsExact: c135_exact_constant (with all correct solvers a constant column changes the clustering, because rows are reshaped to columns and all pairs of columns are compared, C55). Proved in full for AZP, the max-p heuristic, SKATER and exact max-p; the tabu searches and annealing follow from c135_permuted and c135_constant with C88. For PRegionsExact: the order of the columns makes no difference for any metric, and one constant added to all columns changes nothing."
  },
  {
   "property": "C136",
   "status": "partial",
   "theorems": [
    "Region.Props.c136_result_partial",
    "Region.Props.c136_short_partial",
    "Region.Props.c136_short_returns_partial",
    "Region.Props.c136_center_raises"
   ],
   "note": "False: c136_center_raises (ValueError from a feasible start for every draws and every tabu length except 0 and 1). Proved: whatever is returned is feasible with the region labels of the start, for all objectives that raise rather than empty a region and all greedy strategies; with tabu lists of length 0 or 1 and exact differences nothing is raised, and on one island without ties the search returns."
  },
  {
   "property": "C137",
   "status": "partial",
   "theorems": [
    "Region.Props.c137_reactive",
    "Region.Props.c137_basic_endless"
   ],
   "note": "The reactive search always ends. False for the basic search: c137_basic_endless (four areas without ties; exact distances: returns by C36; rounded down: never returns, for all draws, tabu lengths and termination parameters). Where the rounded dissimilarities have no ties C36 applies to them."
  },
  {
   "property": "C138",
   "status": "partial",
   "theorems": [
    "Region.Props.c138_weights_partial",
    "Region.Props.c138_zeros_dropped",
    "Region.Props.c138_stored_zero"
   ],
   "note": "Proved for matrices without stored zeros, with all four local searches (the whole run is the same as on the 0/1 matrix). With stored zeros it is false (c138_stored_zero): grow_regions ignores stored zeros, assign_enclaves takes them for borders, so fit raises ValueError or returns a region that is not contiguous. If indexing drops stored zeros, whatever max-p with AZP returns has contiguous regions (c138_zeros_dropped)."
  },
  {
   "property": "C139",
   "status": "partial",
   "theorems": [
    "Region.Props.c139_search_partial",
    "Region.Props.c139_tabu",
    "Region.Props.c139_checks",
    "Region.Props.c139_exact_partial",
    "Region.Props.c139_maxp_exact_partial",
    "Region.Props.c139_skater",
    "Region.Props.c139_skater_metric",
    "Region.Props.c139_maxp_partial",
    "Region.Props.c139_maxp_loops",
    "Region.Props.c52_self_loop"
   ],
   "note": "Proved for the four regionalization classes (run for run, from labels or from scratch, if links of equal weight are visited in the same order), for the checks of given labels, for SKATER, and for the exact methods with at least two areas more than regions (the same clusterings can be returned by working solvers). False for the max-p heuristic, which can raise with entries on the diagonal (c139_maxp_loops); it still ends, and what it returns is right (c139_maxp_partial). False also for the tree method with one area more than regions (c52_self_loop)."
  },
  {
   "property": "C14",
   "status": "proved",
   "theorems": [
    "Region.Props.c14_azp",
    "Region.Props.c14_exact",
    "Region.Props.c14_maxp",
    "Region.Props.c14_insertion_order"
   ],
   "note": "All dicts over any linear order; c14_insertion_order: equal arguments or equal exceptions whatever the insertion order."
  },
  {
   "property": "C140",
   "status": "proved",
   "theorems": [
    "Region.Props.c140_maxp_azp",
    "Region.Props.c140_maxp_basic_tabu",
    "Region.Props.c140_maxp_reactive_tabu",
    "Region.Props.c140_maxp_sa",
    "Region.Props.c140_maxp_exact",
    "Region.Props.c140_maxp_exact_raises"
   ],
   "note": "The results of the exact method are compared for maps on which some clustering meets the threshold; otherwise the program has no solution (C72)."
  },
  {
   "property": "C141",
   "status": "partial",
   "theorems": [
    "Region.Props.c141_exact_partial",
    "Region.Props.c141_heuristic_loses"
   ],
   "note": "True for the exact method, for every change of threshold or attributes under which clusterings meeting the old quota meet the new one. False for the heuristic: a witness with six areas where the threshold 11 gives three regions and 10 two, for the same draws."
  },
  {
   "property": "C142",
   "status": "partial",
   "theorems": [
    "Region.Props.c142_max_p",
    "Region.Props.c142_azp_alone_partial",
    "Region.Props.c142_annealing_alone_partial",
    "Region.Props.c142_basic_tabu_alone_partial",
    "Region.Props.c142_together",
    "Region.Props.c142_azp_together",
    "Region.Props.c142_annealing_together",
    "Region.Props.c142_basic_tabu_together",
    "Region.Props.c142_exact_alone",
    "Region.Props.c142_exact_together",
    "Region.Props.c133_reactive_raises"
   ],
   "note": "max_p is right for every local search that returns. The labels are right for AZP, annealing (limited inner iterations), basic tabu (single areas: if some threshold is positive) and the exact method (a number as threshold). False for reactive tabu: it raises on every connected map of two or more areas that all reach the thresholds alone."
  },
  {
   "property": "C143",
   "status": "partial",
   "theorems": [
    "Region.Props.c143_azp_partial",
    "Region.Props.c143_annealing_partial",
    "Region.Props.c143_basic_tabu_partial",
    "Region.Props.c143_skater",
    "Region.Props.c143_reactive_raises",
    "Region.Props.c143_order_raises",
    "Region.Props.c143_no_solution"
   ],
   "note": "False as stated. It holds for AZP (which also ends), for simulated annealing and the basic tabu search whenever they return labels, and for SKATER. The reactive tabu search raises on every connected map, the order method raises KeyError, and the flow and the tree problem have no solution."
  },
  {
   "property": "C15",
   "status": "partial",
   "theorems": [
    "Region.Props.c15_rows",
    "Region.Props.c15_aligned_partial",
    "Region.Props.c15_every_other_order",
    "Region.Props.c15_maxp_rows",
    "Region.Props.c15_wrong_regions"
   ],
   "note": "Proved when nodes were added in ascending order; c15_every_other_order refutes it for every other order, c15_wrong_regions shows AZP returning other regions than through fit_from_dict."
  },
  {
   "property": "C16",
   "status": "proved",
   "theorems": [
    "Region.Props.c16_random_element_from",
    "Region.Props.c16_pop_randomly_from"
   ],
   "note": "full statement"
  },
  {
   "property": "C17",
   "status": "partial",
   "theorems": [
    "Region.Props.c17_solver",
    "Region.Props.c17_solver_names",
    "Region.Props.c17_method",
    "Region.Props.c17_not_a_string",
    "Region.Props.c17_metric_partial",
    "Region.Props.c17_none_is_manhattan",
    "Region.Props.c17_precomputed",
    "Region.Props.c17_metric_case_sensitive"
   ],
   "note": "Solver and method validation agree with dispatch for every string. The metric part is false: None gives the Manhattan distance."
  },
  {
   "property": "C18",
   "status": "proved",
   "theorems": [
    "Region.Props.c18_pairwise",
    "Region.Props.c18_renaming"
   ],
   "note": "pairwise objective = sum over unordered pairs within regions; independent of region names"
  },
  {
   "property": "C19",
   "status": "proved",
   "theorems": [
    "Region.Props.c19_update_exact",
    "Region.Props.c19_update_empty_target",
    "Region.Props.c19_needs_zero_diagonal",
    "Region.Props.manhattan_comm",
    "Region.Props.manhattan_self"
   ],
   "note": "exact for every non-empty target region; an empty target makes the metric raise"
  },
  {
   "property": "C20",
   "status": "partial",
   "theorems": [
    "Region.Props.c20_update_exact_partial",
    "Region.Props.c20_call_sum",
    "Region.Props.c20_labels_restored",
    "Region.Props.c20_labels_not_restored_on_error",
    "Region.Props.c20_max_not_exact"
   ],
   "note": "exact for reduction=sum; the statement for every reduction is false, witness with max; labels are restored whenever update returns"
  },
  {
   "property": "C21",
   "status": "proved",
   "theorems": [
    "Region.Props.c21_fit_keeps_feasible",
    "Region.Props.c21_minus_one_frozen"
   ],
   "note": "for every undirected graph, arbitrary strategy state and answers, arbitrary random stream and number of observed iterations"
  },
  {
   "property": "C22",
   "status": "proved",
   "theorems": [
    "Region.Props.c22_fit_from_scratch",
    "Region.Props.c22_any_strategy"
   ],
   "note": "total correctness for the library strategies with exact objectives; partial correctness for any strategy"
  },
  {
   "property": "C23",
   "status": "proved",
   "theorems": [
    "Region.Props.c23_never_worse",
    "Region.Props.c23_fit_pairwise"
   ],
   "note": "per component as a chain of non-worsening admissible moves; whole map for the pairwise objective"
  },
  {
   "property": "C24",
   "status": "proved",
   "theorems": [
    "Region.Props.c24_component_terminates",
    "Region.Props.c24_fit_terminates",
    "Region.Props.c24_pairwise",
    "Region.Props.c24_center",
    "Region.Props.c24_all_minus_one_raises"
   ],
   "note": "never raises and never keeps running, for all random streams; the exception is an island labelled -1 throughout (witness)"
  },
  {
   "property": "C25",
   "status": "proved",
   "theorems": [
    "Region.Props.c25_candidates",
    "Region.Props.c25_reached"
   ],
   "note": "invariant over all states the routine goes through"
  },
  {
   "property": "C26",
   "status": "partial",
   "theorems": [
    "Region.Props.c26_local_optimum_partial",
    "Region.Props.c26_no_ties_partial",
    "Region.Props.c26_fit_partial",
    "Region.Props.c26_one_region_exhausted",
    "Region.Props.c26_not_local_optimum"
   ],
   "note": "false as stated (witness); local optimum unless the last pass made value-neutral moves; for data without ties the result of fit is a local optimum of the whole map"
  },
  {
   "property": "C27",
   "status": "proved",
   "theorems": [
    "Region.Props.c27_start",
    "Region.Props.c27_call",
    "Region.Props.c27_component",
    "Region.Props.c27_not_for_decorator"
   ],
   "note": "invariant of start_new_component and of every call; not true for the Max-p decorator"
  },
  {
   "property": "C28",
   "status": "proved",
   "theorems": [
    "Region.Props.c28_islands_independent"
   ],
   "note": "for arbitrary strategies"
  },
  {
   "property": "C29",
   "status": "proved",
   "theorems": [
    "Region.Props.c29_feasible"
   ],
   "note": "for any objective, parameters, object history, tapes and fuel; labels_ is None only if no labels are given and nonmoving_steps_before_stop <= 0"
  },
  {
   "property": "C30",
   "status": "proved",
   "theorems": [
    "Region.Props.c30_terminates"
   ],
   "note": "finite max_iterations, objective with exact updates"
  },
  {
   "property": "C31",
   "status": "proved",
   "theorems": [
    "Region.Props.c31_history",
    "Region.Props.c31_worsening",
    "Region.Props.c31_frozen",
    "Region.Props.c31_undefined",
    "Region.Props.c31_constructor"
   ],
   "note": "math.exp is an arbitrary function"
  },
  {
   "property": "C32",
   "status": "proved",
   "theorems": [
    "Region.Props.c32_temperature",
    "Region.Props.c32_cooling_validated",
    "Region.Props.c30_terminates"
   ],
   "note": "k = number of labellings appended to visited"
  },
  {
   "property": "C33",
   "status": "proved",
   "theorems": [
    "Region.Props.c33_make_move"
   ],
   "note": "Assumes that all regions are contiguous before the move, as they are in the search. With maxlen=None nothing is dropped."
  },
  {
   "property": "C34",
   "status": "proved",
   "theorems": [
    "Region.Props.c34_round",
    "Region.Props.c34_fit_feasible",
    "Region.Props.c34_result_feasible"
   ],
   "note": "default strategy, pairwise objective with a dissimilarity"
  },
  {
   "property": "C35",
   "status": "proved",
   "theorems": [
    "Region.Props.c35_best_move"
   ],
   "note": "For a symmetric map and every objective function whose update is defined for moves between two regions."
  },
  {
   "property": "C36",
   "status": "partial",
   "theorems": [
    "Region.Props.c36_terminates_partial",
    "Region.Props.c36_not_terminating"
   ],
   "note": "the statement is false for data with ties (counterexample proved for every tabu length); proved for tie-free data"
  },
  {
   "property": "C37",
   "status": "proved",
   "theorems": [
    "Region.Props.c37_fresh_result"
   ],
   "note": "\"Visited in this run\" is stated as reached from the initial labelling by moving one area at a time with contiguous regions all along. That the routine returns is not claimed here, see C39."
  },
  {
   "property": "C38",
   "status": "partial",
   "theorems": [
    "Region.Props.c38_same_component_partial",
    "Region.Props.c38_foreign_labels",
    "Region.Props.c38_wrong_length"
   ],
   "note": "false: visited is never cleared (two counterexamples); proved when the stored labellings belong to the same component"
  },
  {
   "property": "C39",
   "status": "partial",
   "theorems": [
    "Region.Props.c39_returns_partial",
    "Region.Props.c39_attribute_error",
    "Region.Props.c39_type_error",
    "Region.Props.c39_value_error",
    "Region.Props.c114_reactive_is_descent",
    "Region.Props.c131_component",
    "Region.Props.c131_fit",
    "Region.Props.c131_islands"
   ],
   "note": "False in three ways (proved). Proved for fresh objects, k1 >= 1 and graphs with enough moves. For fresh objects with k1 >= 1 the cases are now known exactly: on a connected map fit raises iff the descent runs into a clustering without an open move (c131_fit), and c131_islands says when and how it ends on several islands."
  },
  {
   "property": "C40",
   "status": "partial",
   "theorems": [
    "Region.Props.c40_threshold_preserved_partial",
    "Region.Props.c40_blocks_iff",
    "Region.Props.c40_negative_violates"
   ],
   "note": "Proved for areas without negative attributes; false for negative attributes (witness), since the check of the recipient region is dead code."
  },
  {
   "property": "C41",
   "status": "proved",
   "theorems": [
    "Region.Props.c41_grow_regions",
    "Region.Props.c41_enclaves",
    "Region.Props.c41_self_loop_raises"
   ],
   "note": "Needs a symmetric adjacency matrix without entries on the diagonal; with a self-loop grow_regions raises ValueError (witness)."
  },
  {
   "property": "C42",
   "status": "proved",
   "theorems": [
    "Region.Props.c42_assign_enclaves"
   ],
   "note": "Returns exactly if every island has a region."
  },
  {
   "property": "C43",
   "status": "proved",
   "theorems": [
    "Region.Props.c43_fit",
    "Region.Props.c43_no_iterations"
   ],
   "note": "For AZP as local search with an arbitrary (also decorated) strategy and any objective with exact updates."
  },
  {
   "property": "C44",
   "status": "partial",
   "theorems": [
    "Region.Props.c44_one_pass",
    "Region.Props.c44_misses_improvement",
    "Region.Props.c44_local_optimum_partial"
   ],
   "note": "The property is false: exactly one pass is made (proved for all inputs), with a concrete lost improvement. Partial: local optimality if the pass moved nothing."
  },
  {
   "property": "C45",
   "status": "partial",
   "theorems": [
    "Region.Props.c45_sa_violates",
    "Region.Props.c45_basic_tabu_partial",
    "Region.Props.c45_reactive_tabu_partial",
    "Region.Props.c45_reactive_islands"
   ],
   "note": "False for AZPSimulatedAnnealing and for AZPReactiveTabu on islands (witnesses). Proved (partial correctness) for AZPBasicTabu, and for a new AZPReactiveTabu object on connected maps; with a positive threshold the number of regions is kept too."
  },
  {
   "property": "C46",
   "status": "partial",
   "theorems": [
    "Region.Props.c46_history_matters",
    "Region.Props.c46_guarantees_partial"
   ],
   "note": "False: witness of two different results. Partial: number of regions, feasibility and threshold do not depend on the history."
  },
  {
   "property": "C47",
   "status": "proved",
   "theorems": [
    "Region.Props.c47_find_best_area",
    "Region.Props.c47_find_best_region_idx",
    "Region.Props.c47_every_minimiser"
   ],
   "note": "Also: every minimiser is chosen for some random draw."
  },
  {
   "property": "C48",
   "status": "proved",
   "theorems": [
    "Region.Props.c48_flow_builds",
    "Region.Props.c48_flow_key_error",
    "Region.Props.c48_flow_sound"
   ],
   "note": "every feasible assignment of the _flow program decodes to n_regions contiguous regions labelled 0..n_regions-1; the program is built iff the map is undirected"
  },
  {
   "property": "C49",
   "status": "partial",
   "theorems": [
    "Region.Props.c49_flow_representable_partial",
    "Region.Props.c49_not_representable",
    "Region.Props.c49_single_region_infeasible",
    "Region.Props.c49_singletons_infeasible",
    "Region.Props.c49_flow_solvable"
   ],
   "note": "false as stated: representable iff no region has more than n_areas - n_regions areas (proved as an equivalence); counterexample and infeasible cases proved"
  },
  {
   "property": "C50",
   "status": "proved",
   "theorems": [
    "Region.Props.c50_order_builds",
    "Region.Props.c50_order_sound"
   ],
   "note": "every feasible assignment of the _order program decodes to n_regions contiguous regions"
  },
  {
   "property": "C51",
   "status": "partial",
   "theorems": [
    "Region.Props.c51_order_representable_partial",
    "Region.Props.c51_order_infeasible",
    "Region.Props.c51_order_key_error",
    "Region.Props.c51_order_solvable"
   ],
   "note": "false as stated: with one more area than regions the program has no solution, with as many building it raises KeyError (both proved); proved with at least two more areas than regions"
  },
  {
   "property": "C52",
   "status": "proved",
   "theorems": [
    "Region.Props.c52_tree_builds",
    "Region.Props.c52_tree_sound",
    "Region.Props.c52_self_loop"
   ],
   "note": "dichotomy: n_regions contiguous regions, or KeyError exactly when regions are merged; fails for maps with self-loops and one spare area"
  },
  {
   "property": "C53",
   "status": "partial",
   "theorems": [
    "Region.Props.c53_tree_representable_partial",
    "Region.Props.c53_tree_infeasible",
    "Region.Props.c53_tree_solvable"
   ],
   "note": "false as stated: with fewer than two more areas than regions the program has no solution (proved); proved, up to region names, otherwise"
  },
  {
   "property": "C54",
   "status": "partial",
   "theorems": [
    "Region.Props.c54_flow_optimal_partial",
    "Region.Props.c54_order_optimal",
    "Region.Props.c54_tree_optimal",
    "Region.Props.c54_tree_decodes",
    "Region.Props.c54_fit_order",
    "Region.Props.c54_fit_tree",
    "Region.Props.c54_fit_flow_partial",
    "Region.Props.c54_flow_not_optimal",
    "Region.Props.c54_tree_merges"
   ],
   "note": "order and tree: global optimality proved (tree: KeyError possible when dissimilarities are zero, witness); flow: optimal among clusterings without a region above the capacity, not globally (witness)"
  },
  {
   "property": "C55",
   "status": "partial",
   "theorems": [
    "Region.Props.c55_one_attribute_partial",
    "Region.Props.c55_formula",
    "Region.Props.c55_reshaped",
    "Region.Props.c55_wrong_optimum"
   ],
   "note": "true for one attribute; false for two or more, and the returned clustering need not be optimal"
  },
  {
   "property": "C56",
   "status": "proved",
   "theorems": [
    "Region.Props.c56_sound",
    "Region.Props.c56_representable",
    "Region.Props.c56_solvable",
    "Region.Props.c56_list_ignored"
   ],
   "note": "threshold a number or an array, as documented; a list is silently ignored (proved)"
  },
  {
   "property": "C57",
   "status": "proved",
   "theorems": [
    "Region.Props.c57_optimal",
    "Region.Props.c57_fit"
   ],
   "note": "lexicographic optimality for every non-negative dissimilarity; exact arithmetic for 10**h"
  },
  {
   "property": "C58",
   "status": "partial",
   "theorems": [
    "Region.Props.c58_returns_partial",
    "Region.Props.c58_all_alike",
    "Region.Props.c58_single_area"
   ],
   "note": "false when all areas are alike (log10(0)); true otherwise"
  },
  {
   "property": "C59",
   "status": "proved",
   "theorems": [
    "Region.Props.c59_contiguous"
   ],
   "note": "for every metric, also affinities"
  },
  {
   "property": "C60",
   "status": "proved",
   "theorems": [
    "Region.Props.c60_number",
    "Region.Props.c60_terminates",
    "Region.Props.c60_errors",
    "Region.Props.c60_small_island"
   ],
   "note": "each cut adds exactly one cluster: c62_trace; with an affinity a TypeError is possible (C66) but never 'Malformed MSF!'"
  },
  {
   "property": "C61",
   "status": "partial",
   "theorems": [
    "Region.Props.c61_quorum_partial",
    "Region.Props.c61_small_map"
   ],
   "note": "iff characterisation: fails exactly for a single island smaller than the quorum"
  },
  {
   "property": "C62",
   "status": "proved",
   "theorems": [
    "Region.Props.c62_trace",
    "Region.Props.c62_no_trace"
   ],
   "note": "each step splits exactly one cluster in two"
  },
  {
   "property": "C63",
   "status": "proved",
   "theorems": [
    "Region.Props.c63_best_cut",
    "Region.Props.c63_sum"
   ],
   "note": "metric given as dissimilarity; for affinities see C66"
  },
  {
   "property": "C64",
   "status": "partial",
   "theorems": [
    "Region.Props.c64_start_partial",
    "Region.Props.c64_no_data",
    "Region.Props.c64_identical_neighbours",
    "Region.Props.c64_all_alike"
   ],
   "note": "false when neighbouring areas have dissimilarity zero"
  },
  {
   "property": "C65",
   "status": "partial",
   "theorems": [
    "Region.Props.c65_number_partial",
    "Region.Props.c65_off_by_one"
   ],
   "note": "exact number of clusters without a quorum; the code adds the number of components instead of the number of extra components"
  },
  {
   "property": "C66",
   "status": "partial",
   "theorems": [
    "Region.Props.c66_affinity_fails",
    "Region.Props.c66_affinity_no_cut"
   ],
   "note": "the property is false for every affinity as soon as a cut is needed"
  },
  {
   "property": "C67",
   "status": "partial",
   "theorems": [
    "Region.Props.c67_never_worsens",
    "Region.Props.c67_stuck_in_local_optimum"
   ],
   "note": "the statement is false: proved that a strict local optimum is always returned unchanged and that no move worsens the objective"
  },
  {
   "property": "C68",
   "status": "partial",
   "theorems": [
    "Region.Props.c68_not_worse_partial",
    "Region.Props.c68_best_partial",
    "Region.Props.c68_all_but_last_partial",
    "Region.Props.c68_last_improvement_lost"
   ],
   "note": "false: counterexample; the result is at least as good as everything visited before the last labelling, and as everything visited if max_iterations is large enough"
  },
  {
   "property": "C69",
   "status": "partial",
   "theorems": [
    "Region.Props.c69_keeps_regions_partial",
    "Region.Props.c69_region_lost"
   ],
   "note": "false on used objects with k1 = k2 = 0: counterexample; proved on fresh objects with k1 >= 1"
  },
  {
   "property": "C70",
   "status": "proved",
   "theorems": [
    "Region.Props.c70_best_of_constructed"
   ],
   "note": "For every symmetric metric that is zero on the diagonal, every symmetric map and random tape, whenever fit returns."
  },
  {
   "property": "C71",
   "status": "partial",
   "theorems": [
    "Region.Props.c71_flow_ignores_status",
    "Region.Props.c71_flow_silent",
    "Region.Props.c71_order_silent",
    "Region.Props.c71_tree_silent",
    "Region.Props.c71_n_regions"
   ],
   "note": "false: infeasible programs yield labels without an error for all three methods; only the range of n_regions is checked"
  },
  {
   "property": "C72",
   "status": "partial",
   "theorems": [
    "Region.Props.c72_unreachable_threshold"
   ],
   "note": "false: the status of the solver is not inspected"
  },
  {
   "property": "C73",
   "status": "proved",
   "theorems": [
    "Region.Props.c73_target",
    "Region.Props.c73_splits_target",
    "Region.Props.c73_only_one"
   ],
   "note": "For a dissimilarity (with an affinity the score can fail) and a matrix that is a forest."
  },
  {
   "property": "C74",
   "status": "partial",
   "theorems": [
    "Region.Props.c74_score_partial",
    "Region.Props.c74_other_labels"
   ],
   "note": "false for labels other than 0..k-1: always raises"
  },
  {
   "property": "C75",
   "status": "proved",
   "theorems": [
    "Region.Props.c75_make_cut",
    "Region.Props.c75_malformed"
   ],
   "note": "For a dissimilarity and a matrix that is a forest; a matrix with a cycle is the subject of c75_malformed."
  },
  {
   "property": "C76",
   "status": "partial",
   "theorems": [
    "Region.Props.c76_scores_fall_partial",
    "Region.Props.c76_score_rises"
   ],
   "note": "holds if the centre minimises the sum of distances; false for the default arguments"
  },
  {
   "property": "C77",
   "status": "partial",
   "theorems": [
    "Region.Props.c77_single_partial",
    "Region.Props.c77_hole_filled",
    "Region.Props.c77_unknown_attribute"
   ],
   "note": "A hole in a single attribute raises; with two attributes the hole is filled with another node's value, and an attribute no node has gives an array without columns."
  },
  {
   "property": "C78",
   "status": "partial",
   "theorems": [
    "Region.Props.c78_exact",
    "Region.Props.c78_maxp",
    "Region.Props.c78_azp_missing_partial",
    "Region.Props.c78_azp_extra",
    "Region.Props.c78_azp_extra_silent"
   ],
   "note": "Holds for the exact and max-p classes; AZP raises KeyError for missing areas but accepts superfluous ones and then never has the right rows."
  },
  {
   "property": "C79",
   "status": "partial",
   "theorems": [
    "Region.Props.c79_attr_named",
    "Region.Props.c79_spat_not_named"
   ],
   "note": "attr is named; the message for spatially_extensive_attr prints the value instead (c79_spat_not_named)."
  },
  {
   "property": "C80",
   "status": "partial",
   "theorems": [
    "Region.Props.c80_always_type_error",
    "Region.Props.c80_dict_accepts"
   ],
   "note": "Refuted: every call with initial labels that reaches the algorithm raises TypeError."
  },
  {
   "property": "C81",
   "status": "partial",
   "theorems": [
    "Region.Props.c81_items_partial",
    "Region.Props.c81_column_partial",
    "Region.Props.c81_last_wins",
    "Region.Props.c81_rows_lost"
   ],
   "note": "Proved for distinct index labels; duplicates lose rows (the last one wins)."
  },
  {
   "property": "C82",
   "status": "proved",
   "theorems": [
    "Region.Props.c82_rows",
    "Region.Props.c82_errors"
   ],
   "note": "A data frame is modelled by its columns, a list of named vectors of the same height."
  },
  {
   "property": "C83",
   "status": "proved",
   "theorems": [
    "Region.Props.c83_contiguity",
    "Region.Props.c83_none_rejected"
   ],
   "note": "Letter case as in str.lower for ASCII. The error message offers None as a choice, which is rejected (c83_none_rejected)."
  },
  {
   "property": "C84",
   "status": "proved",
   "theorems": [
    "Region.Props.c84_finer",
    "Region.Props.c84_one_more",
    "Region.Props.c84_any_more",
    "Region.Props.c84_singletons",
    "Region.Props.c84_exact_monotone"
   ],
   "note": "all parts as quantified"
  },
  {
   "property": "C85",
   "status": "proved",
   "theorems": [
    "Region.Props.c85_exact_not_worse",
    "Region.Props.c85_tree_not_worse"
   ],
   "note": "one attribute; order model with n_regions + 2 <= n_areas, tree model moreover with no two areas alike; reactive tabu is left out because its results need not be contiguous (C38)"
  },
  {
   "property": "C86",
   "status": "proved",
   "theorems": [
    "Region.Props.c86_azp",
    "Region.Props.c86_basic_tabu",
    "Region.Props.c86_reactive_tabu",
    "Region.Props.c86_heuristic_can_miss"
   ],
   "note": "the same number as threshold for all columns; reactive tabu on connected maps (C45)"
  },
  {
   "property": "C87",
   "status": "proved",
   "theorems": [
    "Region.Props.c87_bound",
    "Region.Props.c87_heuristic",
    "Region.Props.c87_more_iterations"
   ],
   "note": "the number of iterations is the only difference between the two runs that matters"
  },
  {
   "property": "C88",
   "status": "proved",
   "theorems": [
    "Region.Props.c88_azp",
    "Region.Props.c88_sa",
    "Region.Props.c88_basic_tabu",
    "Region.Props.c88_reactive_tabu",
    "Region.Props.c88_maxp_azp",
    "Region.Props.c88_maxp_basic_tabu",
    "Region.Props.c88_maxp_reactive_tabu",
    "Region.Props.c88_maxp_sa",
    "Region.Props.c88_optimal",
    "Region.Props.c88_azp_center",
    "Region.Props.c88_skater",
    "Region.Props.c88_affine",
    "Region.Props.c88_affine_centers",
    "Region.Props.c88_double",
    "Region.Props.c88_skater_default",
    "Region.Props.c88_temperature_matters"
   ],
   "note": "Two runs are related step by step. The temperature has to be converted: a witness shows that keeping it changes the result. The centre objective is done for AZP and SKATER."
  },
  {
   "property": "C89",
   "status": "proved",
   "theorems": [
    "Region.Props.c89_outcome",
    "Region.Props.c89_ten",
    "Region.Props.c89_eleven",
    "Region.Props.c89_one_random_move"
   ],
   "note": "One round is characterised in full in terms of the history. The repaired cycle length, the positions searched, and both thresholds are stated without the functions of the model (Spec.SinceLast, Spec.earlierOccasions)."
  },
  {
   "property": "C90",
   "status": "proved",
   "theorems": [
    "Region.Props.c90_azp",
    "Region.Props.c90_observers",
    "Region.Props.c90_sa_temperature",
    "Region.Props.c90_sa_moves_term",
    "Region.Props.c90_cooling",
    "Region.Props.c90_tabu_length",
    "Region.Props.c90_max_iterations",
    "Region.Props.c90_sa_no_iterations",
    "Region.Props.c90_mixed_values",
    "Region.Props.c90_wrong_type",
    "Region.Props.c90_empty_graph",
    "Region.Props.c90_too_few_rows",
    "Region.Props.c90_networkx_call"
   ],
   "note": "Python types outside the modelled argument types are represented by one value 'other' each; message of get_metric_function without the leading type name."
  },
  {
   "property": "C91",
   "status": "proved",
   "theorems": [
    "Region.Props.c91_single_region",
    "Region.Props.c91_regions_are_islands",
    "Region.Props.c91_islands",
    "Region.Props.c91_sa",
    "Region.Props.c91_sa_rounds"
   ],
   "note": "Without initial labels at least two islands are needed (for one region see C08)."
  },
  {
   "property": "C92",
   "status": "partial",
   "theorems": [
    "Region.Props.c92_azp_partial",
    "Region.Props.c92_azp_again_partial",
    "Region.Props.c92_basic_tabu_partial",
    "Region.Props.c92_sa_partial",
    "Region.Props.c92_sa_differs",
    "Region.Props.c92_reactive_differs"
   ],
   "note": "Proved for AZP and AZPBasicTabu with the default strategy. False for AZPSimulatedAnnealing and AZPReactiveTabu (witnesses c92_sa_differs and c92_reactive_differs); for annealing only the number of visits of each solution and the flag move_made matter. For max-p see C46."
  },
  {
   "property": "C93",
   "status": "proved",
   "theorems": [
    "Region.Props.c93_pairwise",
    "Region.Props.c93_center",
    "Region.Props.c93_reductions",
    "Region.Props.c93_center_order",
    "Region.Props.c93_azp",
    "Region.Props.c93_sa",
    "Region.Props.c93_basic_tabu",
    "Region.Props.c93_reactive_tabu",
    "Region.Props.c93_azp_order_matters",
    "Region.Props.c93_minus_one_matters"
   ],
   "note": "Two runs on the same random tape, related step by step. For the center objective the reduction must not depend on the order of its values (sum and max do not)."
  },
  {
   "property": "C94",
   "status": "partial",
   "theorems": [
    "Region.Props.c94_azp_draws",
    "Region.Props.c94_basic_tabu_draws",
    "Region.Props.c94_reactive_tabu_draws",
    "Region.Props.c94_sa_draws",
    "Region.Props.c94_azp_partial",
    "Region.Props.c94_basic_tabu_partial",
    "Region.Props.c94_reactive_tabu_partial",
    "Region.Props.c94_sa_partial",
    "Region.Props.c94_maxp_partial",
    "Region.Props.c94_maxp_sa_partial",
    "Region.Props.c94_maxp_default_partial",
    "Region.Props.c94_maxp_default_false",
    "Region.Props.c94_maxp_sa_false",
    "Region.Props.c94_last_constructed",
    "Region.Props.c94_in_between_false",
    "Region.Props.c94_second_fit_false",
    "Region.Props.c94_own_seed_discarded",
    "Region.Props.c94_default_covered",
    "Region.Props.c94_sa_covered",
    "Region.Props.c94_rejected",
    "Region.Props.c94_sa_unseeded",
    "Region.Props.c94_maxp_sa_uses_up"
   ],
   "note": "False as stated: max-p with its default local search (and with unseeded annealing) depends on the entropy of the operating system; the seed belongs to the process, so other constructions and earlier fits interfere. Proved where it holds; every run with reseeding is a run on some tape."
  },
  {
   "property": "C95",
   "status": "proved",
   "theorems": [
    "Region.Props.c95_w_azp",
    "Region.Props.c95_w_maxp",
    "Region.Props.c95_w_key_error",
    "Region.Props.c95_w_same_as_dict",
    "Region.Props.c95_gdf_azp",
    "Region.Props.c95_gdf_maxp",
    "Region.Props.c95_gdf_index",
    "Region.Props.c95_gdf_errors",
    "Region.Props.c95_gdf_fit"
   ],
   "note": "W objects and frames; libpysal's own conversion (id order, row numbering, which polygons touch) is assumed as stated in DESIGN.md."
  },
  {
   "property": "C96",
   "status": "partial",
   "theorems": [
    "Region.Props.c96_exact_raises",
    "Region.Props.c96_exact_returns",
    "Region.Props.c96_azp_raises",
    "Region.Props.c96_azp_returns",
    "Region.Props.c96_sa_partial",
    "Region.Props.c96_sa_n_regions_false",
    "Region.Props.c96_unfitted",
    "Region.Props.c96_missing_metric",
    "Region.Props.c96_maxp_exact_partial",
    "Region.Props.c96_maxp_exact_returns",
    "Region.Props.c96_maxp_exact_metric_false",
    "Region.Props.c96_maxp_partial",
    "Region.Props.c96_maxp_n_regions_false",
    "Region.Props.c96_maxp_raises",
    "Region.Props.c96_maxp_stale_false"
   ],
   "note": "Holds for PRegionsExact and AZP. False: annealing and the max-p heuristic never assign n_regions; MaxPRegionsExact replaces metric before rejecting a solver; the max-p heuristic assigns labels_ every round and none with max_it 0."
  },
  {
   "property": "C97",
   "status": "partial",
   "theorems": [
    "Region.Props.c97_n_regions",
    "Region.Props.c97_method",
    "Region.Props.c97_solver",
    "Region.Props.c97_metric",
    "Region.Props.c97_accepts",
    "Region.Props.c97_precomputed_false",
    "Region.Props.c97_maxp_exact",
    "Region.Props.c97_short_threshold"
   ],
   "note": "All checks and messages proved; false only for the metric \"precomputed\", which passes the check and then raises TypeError."
  },
  {
   "property": "C98",
   "status": "proved",
   "theorems": [
    "Region.Props.c98_minimum",
    "Region.Props.c98_bottleneck"
   ],
   "note": "The forest is the one returned when no cut was made; by C59-C62 all later forests are obtained from it by deleting edges."
  },
  {
   "property": "C99",
   "status": "proved",
   "theorems": [
    "Region.Props.c99_refines",
    "Region.Props.c99_returns"
   ],
   "note": "For every metric, quorum and treatment of islands, whenever both fits return; with a dissimilarity both return if one does (c99_returns)."
  }
 ]
}
