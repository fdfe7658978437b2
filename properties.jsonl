{"id": "C01", "title": "is_connected decides connectedness", "statement": "is_connected(adj) returns True exactly when the graph has at least one node and every two nodes are joined by a path of edges taken in either direction; in particular it is False for the empty graph.", "quantifier": "every finite graph, of any size and shape, symmetric or not", "why_tests_cant": "a test samples a few matrices; the claim is an equivalence over all graphs", "anchors": ["region/csgraph_utils.py:is_connected"]}
{"id": "C02", "title": "neighbors and sub_adj_matrix describe the induced subgraph", "statement": "sub_adj_matrix(adj, nodes, wo_nodes) has exactly one node per element of nodes that is not in wo_nodes, in the given order, and an edge between two of them exactly when adj has it; neighbors(adj, a) lists exactly the areas b with a stored non-zero entry (a, b). Consequently is_connected(sub_adj_matrix(adj, nodes)) says exactly whether the node set is spatially contiguous inside itself.", "quantifier": "every graph, every duplicate-free node array, every excluded node", "why_tests_cant": "universally quantified over graphs and node subsets", "anchors": ["region/csgraph_utils.py:sub_adj_matrix", "region/csgraph_utils.py:neighbors"]}
{"id": "C03", "title": "separate_components splits a labelling by connected component", "statement": "separate_components(adj, labels) yields one array per connected component; in each array an area keeps its label if it belongs to that component and is -1 otherwise, so every area is kept in exactly one yielded array.", "quantifier": "every graph and every label array", "why_tests_cant": "all graphs and labellings", "anchors": ["region/util.py:separate_components"]}
{"id": "C04", "title": "assert_feasible accepts exactly the feasible clusterings", "statement": "assert_feasible(solution, adj, n_regions) returns normally exactly when every label class is spatially contiguous and (if n_regions is given) the number of distinct labels equals n_regions; otherwise it raises ValueError. boolean_assert_feasible agrees with it on contiguity.", "quantifier": "every graph, label array and n_regions (or None)", "why_tests_cant": "an equivalence over all inputs, including all infeasible ones", "anchors": ["region/util.py:assert_feasible", "region/util.py:boolean_assert_feasible"]}
{"id": "C05", "title": "Regions are distributed over components without over-filling any", "statement": "distribute_regions_among_components(component_labels, n_regions), called with at least as many regions as components and at most as many as areas, gives every component at least one region and at most as many regions as it has areas, and the counts add up to n_regions.", "quantifier": "every component labelling, every n_regions in range, every sequence of random draws", "why_tests_cant": "depends on every random draw sequence", "anchors": ["region/util.py:distribute_regions_among_components"]}
{"id": "C06", "title": "Random division of a connected graph gives exactly the requested contiguous regions", "statement": "_randomly_divide_connected_graph(adj, k) with 1 <= k <= number of nodes on a connected graph never raises and returns labels 0..k-1, all used, each class spatially contiguous in adj.", "quantifier": "every connected graph, every k in range, every sequence of random draws", "why_tests_cant": "depends on every random draw; involves spanning-tree reasoning", "anchors": ["region/util.py:_randomly_divide_connected_graph"]}
{"id": "C07", "title": "The generated initial solution is feasible", "statement": "The arrays yielded by generate_initial_sol(adj, n_regions) together label every area exactly once, use exactly n_regions labels 0..n_regions-1, every region is contiguous and no region spans two components; ValueError is raised exactly when there is no area, more regions than areas, or fewer regions than components.", "quantifier": "every graph, every n_regions other than 1 (for 1 see C08), every sequence of random draws", "why_tests_cant": "all graphs with any number of islands and all random draws", "anchors": ["region/util.py:generate_initial_sol"]}
{"id": "C08", "title": "AZP.fit works for a single region", "statement": "AZP().fit(adj, attr, n_regions=1) on a non-empty graph assigns every area of a connected map to one region, as for any other admissible number of regions.", "quantifier": "every non-empty connected graph", "why_tests_cant": "a universal claim; the code in fact violates it on every input (generate_initial_sol yields a dict for n_regions == 1)", "anchors": ["region/util.py:generate_initial_sol", "region/p_regions/azp.py:AZP.fit_from_scipy_sparse_matrix"]}
{"id": "C09", "title": "array_from_region_list inverts a partition", "statement": "array_from_region_list(regions), for regions that partition 0..n-1, returns an array of length n in which area a has label r exactly when a is in regions[r].", "quantifier": "every partition of every initial segment of the naturals", "why_tests_cant": "all partitions of all sizes", "anchors": ["region/util.py:array_from_region_list"]}
{"id": "C10", "title": "find_sublist_containing returns the first container or raises LookupError", "statement": "find_sublist_containing(el, lst, index=True) returns the smallest index whose sublist contains el (and with index=False that sublist); it raises LookupError exactly when no sublist contains el.", "quantifier": "every element and every list of sets", "why_tests_cant": "all inputs", "anchors": ["region/util.py:find_sublist_containing"]}
{"id": "C11", "title": "count counts", "statement": "count(arr, el) equals the number of positions of arr holding el (0 if absent).", "quantifier": "every array and element", "why_tests_cant": "all inputs", "anchors": ["region/util.py:count"]}
{"id": "C12", "title": "array_from_dict_values puts the value of the i-th key in row i", "statement": "array_from_dict_values(dct, sorted_keys) has one row per key of sorted_keys, in that order, holding that key's value(s); without sorted_keys the rows follow the sorted keys. (The docstring also promises this for a subset of the keys or repeated keys.)", "quantifier": "every dict with scalar or fixed-width values and every key sequence", "why_tests_cant": "all dicts and key sequences", "anchors": ["region/util.py:array_from_dict_values"]}
{"id": "C13", "title": "scipy_sparse_matrix_from_dict encodes the neighbor dict", "statement": "In scipy_sparse_matrix_from_dict(neighbors), with areas numbered by their rank in sorted order, entry (i, j) is 1 exactly when area j is listed among the neighbors of area i; a neighbor that is not a key raises KeyError.", "quantifier": "every neighbor dict over any linearly ordered names", "why_tests_cant": "all dicts", "anchors": ["region/util.py:scipy_sparse_matrix_from_dict"]}
{"id": "C14", "title": "fit_from_dict pairs each area with its own attribute", "statement": "In every fit_from_dict, row i of the adjacency matrix, row i of the attribute array and entry i of initial_labels refer to the same area, whatever order the three dicts were built in.", "quantifier": "every neighbor dict, attribute dict and label dict with the same keys, in any insertion order", "why_tests_cant": "every insertion order of every dict", "anchors": ["region/p_regions/azp.py:AZP.fit_from_dict", "region/p_regions/exact.py:PRegionsExact.fit_from_dict", "region/max_p_regions/heuristics.py:MaxPRegionsHeu.fit_from_dict", "region/max_p_regions/exact.py:MaxPRegionsExact.fit_from_dict"]}
{"id": "C15", "title": "fit_from_networkx pairs each node with its own attribute", "statement": "In fit_from_networkx, row i of the adjacency matrix and row i of the attribute array refer to the same node, whatever order nodes were added to the graph.", "quantifier": "every graph, every node insertion order", "why_tests_cant": "tests only use graphs whose nodes were inserted in sorted order; the code violates the claim for every other order", "anchors": ["region/p_regions/azp.py:AZP.fit_from_networkx", "region/util.py:array_from_graph_or_dict", "region/util.py:array_from_graph"]}
{"id": "C16", "title": "Random list helpers", "statement": "random_element_from(lst) returns an element of lst and leaves it alone; pop_randomly_from(lst) returns an element and removes exactly that occurrence; both raise ValueError exactly on the empty list; every element can be returned.", "quantifier": "every list and every random draw", "why_tests_cant": "every draw", "anchors": ["region/util.py:random_element_from", "region/util.py:pop_randomly_from"]}
{"id": "C17", "title": "Option validation agrees with dispatch", "statement": "check_solver accepts a string exactly when get_solver_instance knows it (cbc, cplex, glpk, gurobi in any letter case); _check_method accepts a string exactly when the method dispatch knows it (flow, order, tree in any case). get_metric_function(None) is, as documented, the same as get_metric_function('euclidean').", "quantifier": "every string", "why_tests_cant": "every string and casing; the None default contradicts the documentation", "anchors": ["region/util.py:check_solver", "region/util.py:get_solver_instance", "region/util.py:get_metric_function", "region/p_regions/exact.py:PRegionsExact._check_method"]}
{"id": "C18", "title": "The pairwise objective is the sum of within-region dissimilarities", "statement": "ObjectiveFunctionPairwise()(labels, attr) is the sum of the metric over all unordered pairs of distinct areas in the same region, and does not depend on how regions are named.", "quantifier": "every labelling, attribute array and symmetric metric", "why_tests_cant": "all inputs", "anchors": ["region/objective_function.py:ObjectiveFunctionPairwise.__call__"]}
{"id": "C19", "title": "ObjectiveFunctionPairwise.update is the exact change of the objective", "statement": "update(area, region, labels, attr) equals the objective after relabelling area to region minus the objective before, for any metric that is symmetric and zero on the diagonal, if the target region has an area; for an empty target region the metric raises ValueError.", "quantifier": "every labelling, area, target region (including the area's own and empty ones), attributes", "why_tests_cant": "all inputs", "anchors": ["region/objective_function.py:ObjectiveFunctionPairwise.update"]}
{"id": "C20", "title": "ObjectiveFunctionCenter.update is the exact change of the objective", "statement": "update(area, region, labels, attr) equals the change in the objective caused by the move, for every reduction accepted by the constructor, and leaves labels as they were.", "quantifier": "every labelling, non-lone area, target region and reduction", "why_tests_cant": "all inputs; true for reduction=sum, false for e.g. max", "anchors": ["region/objective_function.py:ObjectiveFunctionCenter.update", "region/objective_function.py:ObjectiveFunctionCenter.__call__"]}
{"id": "C21", "title": "AZP.fit keeps a feasible clustering feasible", "statement": "If AZP.fit is started from a clustering accepted by assert_feasible and returns, then labels_ has the same number of regions, exactly the same region labels, and every region is spatially contiguous, whatever allow-move strategy and objective are used.", "quantifier": "every symmetric graph (any number of islands), every feasible initial labelling, every strategy and objective, every sequence of random draws", "why_tests_cant": "every execution of a randomised local search", "anchors": ["region/p_regions/azp.py:AZP.fit_from_scipy_sparse_matrix", "region/p_regions/azp.py:AZP._azp_connected_component"]}
{"id": "C22", "title": "AZP.fit without initial labels returns a feasible clustering", "statement": "AZP.fit(adj, attr, n_regions) with 2 <= n_regions <= number of areas and at least as many regions as components returns labels_ with exactly n_regions contiguous regions.", "quantifier": "every symmetric graph, every admissible n_regions, every sequence of random draws", "why_tests_cant": "every execution", "anchors": ["region/p_regions/azp.py:AZP.fit_from_scipy_sparse_matrix", "region/util.py:generate_initial_sol"]}
{"id": "C23", "title": "AZP never worsens the objective", "statement": "With the default strategy and an objective whose update is exact, the clustering returned for a component has an objective value not larger than the initial one, and strictly smaller if any improving move was made.", "quantifier": "every component, initial labelling, objective with exact updates, every sequence of random draws", "why_tests_cant": "every execution", "anchors": ["region/p_regions/azp.py:AZP._azp_connected_component", "region/p_regions/azp_util.py:AllowMoveAZP"]}
{"id": "C24", "title": "AZP terminates", "statement": "_azp_connected_component returns after finitely many steps and never raises, for the default and the simulated-annealing strategy and an objective with exact updates.", "quantifier": "every component with symmetric adjacency, every labelling except the one that labels the whole component -1 (which raises), every infinite sequence of random draws", "why_tests_cant": "termination on all inputs under all random choices", "anchors": ["region/p_regions/azp.py:AZP._azp_connected_component"]}
{"id": "C25", "title": "AZP considers exactly the movable border areas", "statement": "Whenever AZP looks for areas to move into region K, the candidate list consists of exactly the areas outside K that border K and whose own region has another member and stays contiguous without them.", "quantifier": "every reachable state of every run", "why_tests_cant": "the bookkeeping of region_neighbors is incremental; the claim is an invariant over all histories", "anchors": ["region/p_regions/azp.py:AZP._azp_connected_component"]}
{"id": "C26", "title": "AZP returns a local optimum", "statement": "When AZP stops, no single admissible move of a border area strictly improves the objective.", "quantifier": "every run of AZP with the default strategy", "why_tests_cant": "every execution; false in general because of value-neutral moves in the last pass, true if the last pass made no move", "anchors": ["region/p_regions/azp.py:AZP._azp_connected_component"]}
{"id": "C27", "title": "The strategy's objective_val is the objective of the current labels", "statement": "Throughout AZP (default or simulated-annealing strategy) allow_move_strategy.objective_val equals objective_func(labels, attr).", "quantifier": "every reachable state, objective with exact updates", "why_tests_cant": "invariant over all histories", "anchors": ["region/p_regions/azp_util.py:AllowMoveStrategy.start_new_component", "region/p_regions/azp_util.py:AllowMoveAZP.__call__", "region/p_regions/azp_util.py:AllowMoveAZPSimulatedAnnealing.__call__"]}
{"id": "C28", "title": "AZP treats islands independently", "statement": "AZP.fit never moves an area to a region of another connected component: every region label in the result is used in the same component as in the initial clustering.", "quantifier": "every graph with any number of components, every run", "why_tests_cant": "all graphs and executions", "anchors": ["region/p_regions/azp.py:AZP.fit_from_scipy_sparse_matrix", "region/util.py:separate_components"]}
{"id": "C29", "title": "Simulated annealing returns a feasible clustering", "statement": "AZPSimulatedAnnealing.fit, started from a feasible clustering or from none, leaves labels_ with n_regions contiguous regions whenever it returns.", "quantifier": "every graph, parameters (nonmoving_steps_before_stop at least 1 if no initial labels are given, otherwise labels_ stays None), every random sequence, any number of annealing rounds", "why_tests_cant": "every execution", "anchors": ["region/p_regions/azp.py:AZPSimulatedAnnealing.fit_from_scipy_sparse_matrix"]}
{"id": "C30", "title": "Simulated annealing with bounded inner iterations terminates", "statement": "With a finite max_iterations, AZPSimulatedAnnealing.fit stops: the outer loop runs at most (repetitions_before_termination + 1) times the number of labellings plus one.", "quantifier": "every graph, parameters, every random sequence", "why_tests_cant": "termination under all random choices", "anchors": ["region/p_regions/azp.py:AZPSimulatedAnnealing.fit_from_scipy_sparse_matrix"]}
{"id": "C31", "title": "The SA strategy counts SA-moves and alerts when the limit is reached", "statement": "A move with non-positive difference is always accepted and never counted; a worsening move is accepted exactly when the random number is below exp(-diff/t), and only then counted; the termination alert has been raised exactly when at least sa_moves_term worsening moves were accepted since the last reset; the constructor rejects non-integral or non-positive sa_moves_term (including its own default).", "quantifier": "every sequence of calls, draws and resets", "why_tests_cant": "all histories", "anchors": ["region/p_regions/azp_util.py:AllowMoveAZPSimulatedAnnealing"]}
{"id": "C32", "title": "Annealing temperature is geometric and cooling_factor is validated", "statement": "After k completed rounds the strategy's temperature is init_temperature * cooling_factor**k; a cooling factor outside (0,1) raises ValueError.", "quantifier": "every run, every k", "why_tests_cant": "all runs of any length", "anchors": ["region/p_regions/azp.py:AZPSimulatedAnnealing.fit_from_scipy_sparse_matrix"]}
{"id": "C33", "title": "Tabu moves never break contiguity", "statement": "_make_move either performs the move and leaves every region contiguous or leaves labels unchanged; it always appends exactly the reverse move to the tabu list, whose length never exceeds its maximum.", "quantifier": "every feasible labelling, every area and target region (even stale ones)", "why_tests_cant": "all states", "anchors": ["region/p_regions/azp.py:AZPTabu._make_move"]}
{"id": "C34", "title": "AZPBasicTabu keeps every region contiguous and loses none", "statement": "Starting from contiguous regions, every state reached by AZPBasicTabu has contiguous regions and exactly the initial set of region labels (default strategy, pairwise objective with a metric).", "quantifier": "every graph, initial labelling, tabu length, random sequence, number of iterations", "why_tests_cant": "every execution", "anchors": ["region/p_regions/azp.py:AZPBasicTabu._azp_connected_component"]}
{"id": "C35", "title": "AZPBasicTabu picks a globally best admissible non-tabu move", "statement": "The move chosen in step 1 is admissible (border area, donor stays contiguous and non-empty), not tabu, and no admissible non-tabu move has a smaller objective difference; None is chosen only if no such move exists.", "quantifier": "every state", "why_tests_cant": "all states", "anchors": ["region/p_regions/azp.py:AZPBasicTabu._azp_connected_component"]}
{"id": "C36", "title": "AZPBasicTabu terminates", "statement": "AZPBasicTabu.fit stops once a solution has been visited repetitions_before_termination times, for every input.", "quantifier": "every input and parameter setting", "why_tests_cant": "termination; false: value-neutral moves can cycle forever", "anchors": ["region/p_regions/azp.py:AZPBasicTabu._azp_connected_component"]}
{"id": "C37", "title": "AZPReactiveTabu returns a feasible clustering of the component", "statement": "AZPReactiveTabu, on a fresh object and a single component, returns a labelling visited in this run, whose regions are all contiguous.", "quantifier": "every graph, labelling, parameters, random sequence", "why_tests_cant": "every execution", "anchors": ["region/p_regions/azp.py:AZPReactiveTabu._azp_connected_component"]}
{"id": "C38", "title": "AZPReactiveTabu's result depends only on the current component", "statement": "The labels AZPReactiveTabu returns for a component are a labelling of that component's areas with that component's region labels, irrespective of earlier components or earlier fits.", "quantifier": "every sequence of components and fits on one object", "why_tests_cant": "history property; false: self.visited is never cleared", "anchors": ["region/p_regions/azp.py:AZPReactiveTabu._azp_connected_component"]}
{"id": "C39", "title": "AZPReactiveTabu never raises on a feasible start", "statement": "AZPReactiveTabu.fit from a feasible clustering returns normally.", "quantifier": "every feasible input", "why_tests_cant": "all inputs; false: empty move list, deque with float length, empty random choice", "anchors": ["region/p_regions/azp.py:AZPReactiveTabu._azp_connected_component"]}
{"id": "C40", "title": "Max-p move filter preserves the threshold", "statement": "If every region meets the threshold before a move allowed by AllowMoveAZPMaxPRegions and the area's spatially extensive attributes are non-negative, every region other than an emptied one meets it afterwards; the docstring claims the same for negative attributes.", "quantifier": "every labelling, attribute array, threshold and move", "why_tests_cant": "all inputs; false for negative attributes", "anchors": ["region/p_regions/azp_util.py:AllowMoveAZPMaxPRegions.__call__"]}
{"id": "C41", "title": "grow_regions builds disjoint contiguous regions over the threshold", "statement": "grow_regions never raises and returns (partition, enclaves) such that the regions and the enclaves partition all areas, every region is contiguous and meets the threshold.", "quantifier": "every symmetric loop-free graph, attributes, thresholds, random sequence", "why_tests_cant": "every execution", "anchors": ["region/max_p_regions/heuristics.py:MaxPRegionsHeu.grow_regions"]}
{"id": "C42", "title": "assign_enclaves completes the partition", "statement": "assign_enclaves puts every enclave into an adjacent region, keeps every region contiguous and the number of regions unchanged; it raises only if some connected component received no region.", "quantifier": "every partial partition produced by grow_regions, every random sequence", "why_tests_cant": "every execution", "anchors": ["region/max_p_regions/heuristics.py:MaxPRegionsHeu.assign_enclaves"]}
{"id": "C43", "title": "MaxPRegionsHeu.fit returns a feasible max-p solution", "statement": "With the default local search and non-negative spatially extensive attributes, labels_ has contiguous regions, each meeting the threshold, and as many regions as the best partition constructed.", "quantifier": "every graph in which each component's total meets the threshold, every max_it >= 1, every random sequence", "why_tests_cant": "every execution of construction plus local search", "anchors": ["region/max_p_regions/heuristics.py:MaxPRegionsHeu.fit_from_scipy_sparse_matrix"]}
{"id": "C44", "title": "Max-p local search repeats until no improvement", "statement": "The AZP local search inside MaxPRegionsHeu repeats its passes until a pass brings no improvement, as AZP does.", "quantifier": "every run", "why_tests_cant": "false: the decorating strategy's objective_val is never updated, so exactly one pass is made", "anchors": ["region/p_regions/azp_util.py:AllowMoveAZPMaxPRegions.start_new_component", "region/p_regions/azp.py:AZP._azp_connected_component"]}
{"id": "C45", "title": "The threshold holds for every documented local search", "statement": "MaxPRegionsHeu keeps the threshold condition with any documented local_search, including AZPSimulatedAnnealing.", "quantifier": "every run with local_search=AZPSimulatedAnnealing", "why_tests_cant": "false: AZPSimulatedAnnealing.fit replaces the threshold-checking strategy", "anchors": ["region/max_p_regions/heuristics.py:MaxPRegionsHeu.fit_from_scipy_sparse_matrix", "region/p_regions/azp.py:AZPSimulatedAnnealing.fit_from_scipy_sparse_matrix"]}
{"id": "C46", "title": "Repeated max-p fits are independent", "statement": "The moves allowed in a MaxPRegionsHeu fit depend only on that fit's threshold and attributes, not on earlier fits with the same object.", "quantifier": "every sequence of fits", "why_tests_cant": "history property; false: strategies are wrapped around each other", "anchors": ["region/max_p_regions/heuristics.py:MaxPRegionsHeu.fit_from_scipy_sparse_matrix"]}
{"id": "C47", "title": "find_best_area / find_best_region_idx choose a minimiser", "statement": "find_best_area returns a candidate with the smallest total dissimilarity to the region; find_best_region_idx a candidate region with the smallest total dissimilarity to the area; both raise exactly on an empty candidate set.", "quantifier": "every region, candidate set, metric, random draw", "why_tests_cant": "all inputs", "anchors": ["region/max_p_regions/heuristics.py:MaxPRegionsHeu.find_best_area", "region/max_p_regions/heuristics.py:MaxPRegionsHeu.find_best_region_idx"]}
{"id": "C48", "title": "Flow model: every feasible solution is a feasible clustering", "statement": "Every integer solution of the constraints built by _flow decodes to n_regions non-empty contiguous regions.", "quantifier": "every symmetric graph, every n_regions, every feasible variable assignment", "why_tests_cant": "over all solutions of an integer program of any size", "anchors": ["region/p_regions/exact.py:_flow"]}
{"id": "C49", "title": "Flow model: every feasible clustering is representable", "statement": "Every clustering into n_regions non-empty contiguous regions is the decoding of a feasible solution of the _flow constraints.", "quantifier": "every symmetric graph, every clustering", "why_tests_cant": "false: the sink capacity excludes regions with n_areas - n_regions + 1 areas, hence e.g. n_regions=1 is infeasible", "anchors": ["region/p_regions/exact.py:_flow"]}
{"id": "C50", "title": "Order model: every feasible solution is a feasible clustering", "statement": "Every integer solution of the constraints built by _order decodes to n_regions non-empty contiguous regions.", "quantifier": "every graph, every n_regions, every feasible assignment", "why_tests_cant": "over all solutions", "anchors": ["region/p_regions/exact.py:_order"]}
{"id": "C51", "title": "Order model: every feasible clustering is representable", "statement": "Every clustering into n_regions non-empty contiguous regions is the decoding of a feasible solution of the _order constraints.", "quantifier": "every graph and clustering", "why_tests_cant": "true when n_areas - n_regions >= 2, false when it is 1 (infeasible) or 0 (KeyError)", "anchors": ["region/p_regions/exact.py:_order"]}
{"id": "C52", "title": "Tree model: decoding yields a feasible clustering", "statement": "For every integer solution of the _tree constraints, the decoding either yields n_regions contiguous regions or raises KeyError, the latter exactly when the solution merges regions.", "quantifier": "every symmetric graph without self-loops (with self-loops if there are two more areas than regions), every feasible assignment", "why_tests_cant": "over all solutions", "anchors": ["region/p_regions/exact.py:_tree"]}
{"id": "C53", "title": "Tree model: every feasible clustering is representable", "statement": "Every clustering into n_regions non-empty contiguous regions is the decoding of a feasible solution of the _tree constraints.", "quantifier": "every symmetric graph and clustering", "why_tests_cant": "true when n_areas - n_regions >= 2, false otherwise (infeasible)", "anchors": ["region/p_regions/exact.py:_tree"]}
{"id": "C54", "title": "Exact p-regions solutions are globally optimal", "statement": "If the solver returns an optimal solution of the model, labels_ minimises the pairwise objective among all clusterings into n_regions contiguous regions (representable ones for _flow).", "quantifier": "every graph, non-negative dissimilarity, optimal solution", "why_tests_cant": "optimality over all clusterings", "anchors": ["region/p_regions/exact.py:_flow", "region/p_regions/exact.py:_order", "region/p_regions/exact.py:_tree"]}
{"id": "C55", "title": "Exact p-regions optimises the requested metric", "statement": "The dissimilarity d[i, j] used by PRegionsExact is metric(attr[i], attr[j]) for any number of attributes.", "quantifier": "every attribute array with any number of columns", "why_tests_cant": "false for two or more attributes because rows are reshaped to columns", "anchors": ["region/p_regions/exact.py:_flow", "region/p_regions/exact.py:_order", "region/p_regions/exact.py:_tree"]}
{"id": "C56", "title": "Max-p exact: solutions are feasible and every feasible clustering is representable", "statement": "Every solution of the MaxPRegionsExact constraints decodes to contiguous regions each meeting the threshold, and every such clustering is (up to naming regions) the decoding of a solution whose number of roots is its number of regions.", "quantifier": "every graph, attributes, thresholds given as a number or an array (a list is silently ignored), assignments", "why_tests_cant": "over all solutions and clusterings", "anchors": ["region/max_p_regions/exact.py:MaxPRegionsExact.fit_from_scipy_sparse_matrix"]}
{"id": "C57", "title": "Max-p exact is lexicographically optimal", "statement": "An optimal solution of the MaxPRegionsExact model has the largest possible number of regions and, among those clusterings, the smallest pairwise objective.", "quantifier": "every instance with positive total dissimilarity", "why_tests_cant": "optimality over all clusterings", "anchors": ["region/max_p_regions/exact.py:MaxPRegionsExact.fit_from_scipy_sparse_matrix"]}
{"id": "C58", "title": "Max-p exact accepts every non-degenerate instance", "statement": "MaxPRegionsExact.fit does not raise on valid data.", "quantifier": "every attribute array", "why_tests_cant": "false when all dissimilarities are zero (log10(0)), e.g. a single area", "anchors": ["region/max_p_regions/exact.py:MaxPRegionsExact.fit_from_scipy_sparse_matrix"]}
{"id": "C59", "title": "SKATER clusters are contiguous", "statement": "Every label class returned by Spanning_Forest.fit is connected in W.", "quantifier": "every symmetric W, data, quorum, n_clusters, islands option", "why_tests_cant": "every execution", "anchors": ["region/skater/skater.py:Spanning_Forest.fit"]}
{"id": "C60", "title": "SKATER returns the requested number of clusters or runs out of valid cuts", "statement": "fit ends with exactly the target number of clusters, or with more only if the forest started with more components, or with fewer only if every remaining cut violates the quorum; each accepted cut adds exactly one cluster; it always terminates, also for n_clusters=inf, and never raises 'Malformed MSF!'.", "quantifier": "every input", "why_tests_cant": "every execution, any number of cuts", "anchors": ["region/skater/skater.py:Spanning_Forest.fit", "region/skater/skater.py:Spanning_Forest.find_cut", "region/skater/skater.py:Spanning_Forest.make_cut"]}
{"id": "C61", "title": "SKATER respects the quorum", "statement": "Every cluster returned by fit has at least quorum areas.", "quantifier": "every input", "why_tests_cant": "false for a connected map smaller than the quorum; true otherwise", "anchors": ["region/skater/skater.py:Spanning_Forest.fit", "region/skater/skater.py:Spanning_Forest.score"]}
{"id": "C62", "title": "SKATER's trace is a hierarchy", "statement": "Each labelling in the trace refines the previous one.", "quantifier": "every run with trace=True", "why_tests_cant": "every execution", "anchors": ["region/skater/skater.py:Spanning_Forest.fit"]}
{"id": "C63", "title": "find_cut returns a best valid cut", "statement": "find_cut returns an edge of the forest whose removal gives the smallest score among all removals meeting the quorum, and an infinite score exactly when no removal meets it.", "quantifier": "every forest, data, quorum", "why_tests_cant": "all inputs", "anchors": ["region/skater/skater.py:Spanning_Forest.find_cut"]}
{"id": "C64", "title": "SKATER keeps neighbouring areas with identical data linked", "statement": "On a connected map the forest fit starts from is connected, so that clusters are only created by cuts.", "quantifier": "every connected W and data", "why_tests_cant": "false: zero dissimilarities between neighbours are deleted as if they were missing edges", "anchors": ["region/skater/skater.py:Spanning_Forest.fit"]}
{"id": "C65", "title": "SKATER's islands option", "statement": "With islands='increase' the number of clusters found is n_clusters plus the number of islands (extra components); with 'ignore' it is n_clusters.", "quantifier": "every map with several components", "why_tests_cant": "false by one: the code adds the number of components", "anchors": ["region/skater/skater.py:Spanning_Forest.fit"]}
{"id": "C66", "title": "SKATER works with an affinity", "statement": "Spanning_Forest(affinity=...).fit evaluates cuts with -log(affinity).", "quantifier": "every affinity", "why_tests_cant": "false: the metric built from an affinity does not accept the X=, Y= arguments score passes", "anchors": ["region/skater/skater.py:Spanning_Forest.__init__", "region/skater/skater.py:Spanning_Forest.score"]}
{"id": "C67", "title": "AZPBasicTabu leaves local optima", "statement": "If no improving move and no aspiration move exists, AZPBasicTabu makes the best non-tabu move even if it worsens the objective (step 4 of Openshaw and Rao).", "quantifier": "every local optimum with an admissible non-tabu move", "why_tests_cant": "false with the default strategy: AllowMoveAZP refuses every worsening move, for all inputs", "anchors": ["region/p_regions/azp.py:AZPBasicTabu._azp_connected_component", "region/p_regions/azp_util.py:AllowMoveAZP"]}
{"id": "C68", "title": "AZPReactiveTabu returns its best solution", "statement": "The labelling AZPReactiveTabu returns is at least as good as every labelling it visited in this run.", "quantifier": "every run on a fresh object", "why_tests_cant": "every execution; false: visited[-2] is returned even when max_iterations ended the loop after an improvement", "anchors": ["region/p_regions/azp.py:AZPReactiveTabu._azp_connected_component"]}
{"id": "C69", "title": "AZPReactiveTabu loses no region", "statement": "The result of AZPReactiveTabu has exactly the region labels of the initial labelling.", "quantifier": "every graph, initial labelling, parameters, history of the object and random sequence", "why_tests_cant": "depends on the history and random draws; false: stale random moves can empty a region", "anchors": ["region/p_regions/azp.py:AZPReactiveTabu._azp_connected_component"]}
{"id": "C70", "title": "The max-p result is no worse than any constructed partition", "statement": "With the pairwise objective and the default strategy, the objective of labels_ is at most the objective of every partition with the maximal number of regions produced by the construction phase.", "quantifier": "every graph, attributes, threshold, max_it, random sequence for which fit returns", "why_tests_cant": "every execution of construction plus local search", "anchors": ["region/max_p_regions/heuristics.py:MaxPRegionsHeu.fit_from_scipy_sparse_matrix"]}
{"id": "C71", "title": "Exact p-regions does not return labels when the model has no solution", "statement": "If the integer program built by PRegionsExact.fit has no feasible solution, fit raises instead of setting labels_.", "quantifier": "every graph, attribute array, n_regions, method and solver outcome", "why_tests_cant": "false: prob.status is never inspected; a solver that leaves varValue None yields one region of zeros (flow, order) or an array of the wrong length (tree)", "anchors": ["region/p_regions/exact.py:_flow", "region/p_regions/exact.py:_order", "region/p_regions/exact.py:_tree"]}
{"id": "C72", "title": "Max-p exact reports thresholds that cannot be met", "statement": "If no clustering into contiguous regions meets the threshold, MaxPRegionsExact.fit raises instead of setting labels_.", "quantifier": "every graph, attribute array, threshold and solver outcome", "why_tests_cant": "false: prob.status is never inspected, so a region violating the threshold is returned when the solver leaves the variables unset", "anchors": ["region/max_p_regions/exact.py:MaxPRegionsExact.fit_from_scipy_sparse_matrix"]}
{"id": "C73", "title": "find_cut restricted to one cluster", "statement": "With labels and target_label, find_cut returns the best valid cut among the edges of the target cluster, the cut splits that cluster only, and giving only one of the two arguments raises a ValueError.", "quantifier": "every forest, labelling of its trees, target, data, quorum", "why_tests_cant": "all inputs", "anchors": ["region/skater/skater.py:Spanning_Forest.find_cut"]}
{"id": "C74", "title": "SKATER's score of a labelling", "statement": "score(data, labels, quorum) is the reduction over the clusters of the reduced distances to the centre of the cluster, and infinite iff a cluster is below the quorum.", "quantifier": "every labelling", "why_tests_cant": "false: labels other than 0..k-1 make it fail", "anchors": ["region/skater/skater.py:Spanning_Forest.score"]}
{"id": "C75", "title": "find_cut(make=True) and make_cut", "statement": "find_cut(make=True) removes exactly the best valid edge, adding one tree, and raises OptimizeWarning iff no removal meets the quorum; a matrix with a cycle is reported as malformed.", "quantifier": "every forest, data, quorum", "why_tests_cant": "all inputs", "anchors": ["region/skater/skater.py:Spanning_Forest.find_cut", "region/skater/skater.py:Spanning_Forest.make_cut"]}
{"id": "C76", "title": "SKATER's cuts never make the score worse", "statement": "Along the trace of fit the score never rises, and the score recorded with a cut is the score of the labelling recorded with it.", "quantifier": "every run", "why_tests_cant": "false for the default arguments (absolute distances to the mean); true if the centre minimises the sum of the distances", "anchors": ["region/skater/skater.py:Spanning_Forest.fit", "region/skater/skater.py:Spanning_Forest.score"]}
{"id": "C77", "title": "A node lacking a requested attribute is noticed", "statement": "array_from_graph_or_dict(graph, attr) either raises or gives every node a row with its own values of all requested attributes; it never fills a hole with another node's value or returns an array without columns.", "quantifier": "every graph, every choice of attributes, every set of nodes lacking some of them", "why_tests_cant": "the code violates it as soon as the number of values happens to be divisible by the number of nodes", "anchors": ["region/util.py:dict_from_graph_attr", "region/util.py:array_from_graph", "region/util.py:array_from_dict_values"]}
{"id": "C78", "title": "fit_from_dict rejects data for other areas", "statement": "fit_from_dict raises when the keys of the attribute dict (and of the dict of spatially extensive attributes) are not exactly the areas of the neighbor dict.", "quantifier": "every neighbor dict and attribute dict, in every class", "why_tests_cant": "all pairs of dicts; AZP has no check and silently reshapes the data of superfluous areas", "anchors": ["region/p_regions/azp.py:AZP.fit_from_dict", "region/p_regions/exact.py:PRegionsExact.fit_from_dict", "region/max_p_regions/heuristics.py:MaxPRegionsHeu.fit_from_dict", "region/max_p_regions/exact.py:MaxPRegionsExact.fit_from_dict"]}
{"id": "C79", "title": "The error names the offending argument", "statement": "When fit_from_dict rejects a dict, the message names the argument that was wrong (neighbors_dict, attr or spatially_extensive_attr).", "quantifier": "every combination of bad arguments", "why_tests_cant": "no test reads the message; the code prints the argument's value in place of its name", "anchors": ["region/max_p_regions/heuristics.py:MaxPRegionsHeu.fit_from_dict", "region/max_p_regions/exact.py:MaxPRegionsExact.fit_from_dict"]}
{"id": "C80", "title": "Initial labels can be given through fit_from_networkx", "statement": "AZP.fit_from_networkx(graph, attr, n_regions, initial_labels) works like fit_from_dict with the same labels.", "quantifier": "every graph, attribute and label argument", "why_tests_cant": "the code fails for every graph; no test passes initial_labels through networkx", "anchors": ["region/p_regions/azp.py:AZP.fit_from_networkx", "region/util.py:array_from_graph_or_dict", "region/util.py:assert_feasible"]}
{"id": "C81", "title": "dataframe_to_dict keeps every row", "statement": "dataframe_to_dict(df, cols) maps every index label to the row with that label, and has one item per row.", "quantifier": "every data frame and choice of columns", "why_tests_cant": "all data frames; with duplicate labels rows are lost silently", "anchors": ["region/util.py:dataframe_to_dict"]}
{"id": "C82", "title": "array_from_df_col selects the columns row by row", "statement": "array_from_df_col(df, attr) has one row per row of df with the values of the named columns in the order named; a string stands for a list of one; an unknown column raises KeyError; anything else raises ValueError.", "quantifier": "every data frame and argument", "why_tests_cant": "all data frames", "anchors": ["region/util.py:array_from_df_col"]}
{"id": "C83", "title": "w_from_gdf accepts rook and queen only", "statement": "w_from_gdf chooses rook contiguity exactly for 'rook' in any letter case, queen contiguity exactly for 'queen' in any case, and raises ValueError for every other argument.", "quantifier": "every string and non-string", "why_tests_cant": "every string and casing", "anchors": ["region/util.py:w_from_gdf"]}
{"id": "C84", "title": "More regions never cost more", "statement": "With non-negative dissimilarities a finer clustering never has a larger pairwise objective; every clustering into p < n contiguous regions can be refined by splitting one region into two contiguous ones; with one region per area the objective is 0; hence the optimum found by PRegionsExact is non-increasing in n_regions.", "quantifier": "every graph, attributes, clustering and number of regions; for the last part one attribute (see C55), the order model and at least two more areas than regions (see C51)", "why_tests_cant": "all graphs and clusterings; no test compares different n_regions", "anchors": ["region/objective_function.py:ObjectiveFunctionPairwise.__call__", "region/p_regions/exact.py:PRegionsExact.fit_from_scipy_sparse_matrix"]}
{"id": "C85", "title": "The exact method is never worse than a heuristic", "statement": "For the same graph, attribute and n_regions, the labels found by PRegionsExact (order and tree model, working solver) have an objective at most that of any labels returned by AZP, AZPSimulatedAnnealing, AZPBasicTabu or, with the same number of clusters, SKATER.", "quantifier": "every graph, one attribute (see C55), parameters, initial labels and random draws; at least two more areas than regions (see C51, C53); for the tree model no two areas alike (see C54)", "why_tests_cant": "no test compares the algorithms with each other; all random draws", "anchors": ["region/p_regions/exact.py:PRegionsExact.fit_from_scipy_sparse_matrix", "region/p_regions/azp.py:AZP.fit_from_scipy_sparse_matrix", "region/p_regions/azp.py:AZPSimulatedAnnealing.fit_from_scipy_sparse_matrix", "region/p_regions/azp.py:AZPBasicTabu"]}
{"id": "C86", "title": "The exact max-p method is never worse than the heuristic", "statement": "For the same input MaxPRegionsExact (working solver) finds at least as many regions as MaxPRegionsHeu with AZP or tabu search, and if it finds as many, a value at most as large.", "quantifier": "every graph without loops (connected for the reactive tabu search, see C45), attributes, non-negative weights, threshold (one number), iterations and random draws", "why_tests_cant": "no test compares the two; all random draws", "anchors": ["region/max_p_regions/exact.py:MaxPRegionsExact.fit_from_scipy_sparse_matrix", "region/max_p_regions/heuristics.py:MaxPRegionsHeu.fit_from_scipy_sparse_matrix"]}
{"id": "C87", "title": "Bounds on max_p", "statement": "The number of regions times the threshold is at most the total of the spatially extensive attribute; for the same random draws more construction iterations never end with fewer regions.", "quantifier": "every graph, attributes, thresholds, iteration counts and random draws", "why_tests_cant": "all inputs and draws; a relation between two runs", "anchors": ["region/max_p_regions/heuristics.py:MaxPRegionsHeu.fit_from_scipy_sparse_matrix", "region/max_p_regions/heuristics.py:MaxPRegionsHeu.grow_regions"]}
{"id": "C88", "title": "Units of measurement do not matter", "statement": "Multiplying all attributes by a constant other than 0, adding constants to columns, or any other change of the attributes that multiplies every dissimilarity by the same positive number, does not change the labels (or the exception) of AZP, simulated annealing (with the initial temperature converted too), basic and reactive tabu, the max-p heuristic with any of them, and SKATER, for the same random draws; nor which clusterings have the least sum of dissimilarities between areas of one region (what PRegionsExact minimises is another sum if there are several columns, see C55 and C135).", "quantifier": "all maps, attributes, metrics, factors, strategies, parameters, initial labels and random tapes; SKATER for orders of equal weights that do not depend on units", "why_tests_cant": "A relation between two runs for all inputs; every comparison in every loop has to respect it.", "anchors": ["region/p_regions/azp.py:AZP.fit_from_scipy_sparse_matrix", "region/p_regions/azp.py:AZPSimulatedAnnealing.fit_from_scipy_sparse_matrix", "region/p_regions/azp.py:AZPBasicTabu._azp_connected_component", "region/p_regions/azp.py:AZPReactiveTabu._azp_connected_component", "region/p_regions/azp_util.py:AllowMoveAZPSimulatedAnnealing.__call__", "region/max_p_regions/heuristics.py:MaxPRegionsHeu.fit_from_scipy_sparse_matrix", "region/skater/skater.py:Spanning_Forest.fit", "region/objective_function.py:ObjectiveFunctionPairwise"]}
{"id": "C89", "title": "Cycle detection in the reactive tabu search", "statement": "After each move of the reactive tabu search the solution reached is appended to the history (step 10) unless it has been seen more than k1 times. In that case let the cycle be the part of the history since it was last seen. If this sequence is found at k2 or more earlier positions of the history, the solution is remembered as the result, the history is forgotten and one random move is tried (step 11); otherwise the call raises TypeError. The count of random moves is always one because avg_it_until_rep is never updated by fit.", "quantifier": "For every graph, attributes, objective function, strategy, k1, k2, history, tabu list, and state of the random generator.", "why_tests_cant": "A cycle needs many rounds to appear, and whether it is detected at the right time cannot be seen in the labels returned; tests never reach step 11.", "anchors": ["region/p_regions/azp.py:AZPReactiveTabu._azp_connected_component"]}
{"id": "C90", "title": "Invalid arguments are rejected with the documented error", "statement": "Constructors and adapters accept exactly the valid arguments, store them unchanged, and raise the documented exception with its message otherwise: allow_move_strategy, observers, init_temperature, sa_moves_term, cooling_factor, tabu_length, max_iterations, dicts mixing numbers and sequences, attr arguments of the wrong type, neighbors that are not a dict, graphs without nodes, and attribute arrays with too few rows.", "quantifier": "For every argument value of the modelled types and every state of the other arguments.", "why_tests_cant": "Tests try single bad values; they do not show that all others are accepted and stored unchanged, nor which exception wins when several arguments are bad.", "anchors": ["region/p_regions/azp.py:AZP.__init__", "region/p_regions/azp.py:AZPSimulatedAnnealing.__init__", "region/p_regions/azp.py:AZPBasicTabu.__init__", "region/p_regions/azp.py:AZPReactiveTabu.__init__", "region/p_regions/azp_util.py:AllowMoveAZPSimulatedAnnealing.__init__", "region/p_regions/azp_util.py:AllowMoveAZPSimulatedAnnealing.register_move_made", "region/util.py:array_from_dict_values", "region/util.py:array_from_graph_or_dict", "region/util.py:get_metric_function"]}
{"id": "C91", "title": "As many regions as islands: the islands are returned", "statement": "If as many regions are requested as there are islands, every contiguous clustering with that many regions consists of the islands, and AZP, AZPBasicTabu and AZPReactiveTabu return them without a single iteration and without an exception, for every strategy and objective; initial labels are returned unchanged. Simulated annealing returns the islands whenever it returns labels. A component with one region is returned unchanged at once.", "quantifier": "For every graph with at least two islands (or initial labels given), every strategy, objective, tape of random numbers, object state.", "why_tests_cant": "Needs all graphs with several islands; the loops' exits cannot be seen from outside.", "anchors": ["region/p_regions/azp.py:AZP.fit_from_scipy_sparse_matrix", "region/p_regions/azp.py:AZP._azp_connected_component", "region/p_regions/azp.py:AZPBasicTabu._azp_connected_component", "region/p_regions/azp.py:AZPReactiveTabu._azp_connected_component", "region/p_regions/azp.py:AZPSimulatedAnnealing.fit_from_scipy_sparse_matrix"]}
{"id": "C92", "title": "An object can be used for several fits", "statement": "Fitting with an object that has been used before gives the same labels as fitting with a new object of the same class and parameters, given the same arguments and random numbers.", "quantifier": "For every sequence of fits, all graphs, attributes, objectives and random numbers.", "why_tests_cant": "History property: needs two fits with one object, and the difference only shows when solutions are repeated; false for simulated annealing and the reactive tabu search, whose list of visited solutions is never cleared.", "anchors": ["region/p_regions/azp.py:AZP.fit_from_scipy_sparse_matrix", "region/p_regions/azp.py:AZPSimulatedAnnealing.fit_from_scipy_sparse_matrix", "region/p_regions/azp.py:AZPReactiveTabu._azp_connected_component"]}
{"id": "C93", "title": "The names of the regions do not matter", "statement": "Two initial clusterings that are the same partition under different names lead to the same regions: the tabu searches do exactly the same for any renaming, AZP and simulated annealing for any renaming that keeps the names in the same order; and the objective functions depend on the partition only.  (The name -1 is excluded; exchanging the order of the names can change what AZP finds.)", "quantifier": "all maps, all feasible initial clusterings, all renamings, all random tapes, every strategy", "why_tests_cant": "Tests label regions 0..p-1; a relation between two executions under every renaming cannot be sampled", "anchors": ["region/p_regions/azp.py:AZP._azp_connected_component", "region/p_regions/azp.py:AZPBasicTabu._azp_connected_component", "region/p_regions/azp.py:AZPReactiveTabu._azp_connected_component", "region/objective_function.py:ObjectiveFunctionPairwise.update", "region/objective_function.py:ObjectiveFunctionCenter.update"]}
{"id": "C94", "title": "Passing random_state makes the result reproducible", "statement": "Constructing an object with a given random_state and fitting it gives the same labels whatever the random generator did before; the outcome of every fit is determined by the finitely many numbers drawn.  (True for AZP and the tabu searches if the fit follows the construction at once, for annealing at any time, and for max-p with a given local search; false for max-p with its default local search, after another object has been constructed, and for a second fit.)", "quantifier": "all maps, attributes, seeds, generators, states of the process, strategies and local searches", "why_tests_cant": "Tests fix one seed and compare labels in one process; independence of everything the process did before, and of the entropy of the operating system, is not observable in one run", "anchors": ["region/p_regions/azp.py:AZP.__init__", "region/p_regions/azp.py:AZPSimulatedAnnealing.fit_from_scipy_sparse_matrix", "region/p_regions/azp.py:AZPBasicTabu.__init__", "region/p_regions/azp.py:AZPReactiveTabu.__init__", "region/max_p_regions/heuristics.py:MaxPRegionsHeu.__init__", "region/max_p_regions/heuristics.py:MaxPRegionsHeu.fit_from_scipy_sparse_matrix"]}
{"id": "C95", "title": "The pysal entry points keep areas, attributes and labels aligned", "statement": "fit_from_w numbers the areas by the id order of the W object and hands attributes and labels on untouched; fit_from_geodataframe numbers the areas by the rows of the frame, whatever its index, with the asked contiguity and with the named columns in the named order; a neighbor that is not an id and an unknown column raise KeyError, an unknown contiguity ValueError before anything else; for ascending ids fit_from_w makes the same call as fit_from_dict, and fitting AZP from a frame is fitting on the touching relation and the rows of the frame.", "quantifier": "all W objects, all geographic data frames with any index, all column arguments, contiguity strings and labels", "why_tests_cant": "The tests use one small lattice whose index is 0..n-1, so a numbering by index, by sorted ids or by insertion order looks the same.", "anchors": ["region/util.py:scipy_sparse_matrix_from_w", "region/util.py:w_from_gdf", "region/util.py:array_from_df_col", "region/p_regions/azp.py:AZP.fit_from_w", "region/p_regions/azp.py:AZP.fit_from_geodataframe", "region/p_regions/azp.py:AZPSimulatedAnnealing.fit_from_w", "region/p_regions/azp.py:AZPSimulatedAnnealing.fit_from_geodataframe", "region/p_regions/exact.py:PRegionsExact.fit_from_w", "region/p_regions/exact.py:PRegionsExact.fit_from_geodataframe", "region/max_p_regions/heuristics.py:MaxPRegionsHeu.fit_from_w", "region/max_p_regions/heuristics.py:MaxPRegionsHeu.fit_from_geodataframe", "region/max_p_regions/exact.py:MaxPRegionsExact.fit_from_w", "region/max_p_regions/exact.py:MaxPRegionsExact.fit_from_geodataframe"]}
{"id": "C96", "title": "A fit that returns updates the object, one that fails leaves it alone", "statement": "After fit returns, labels_ and n_regions (and metric, method and solver where the class has them) are those of this fit, whatever an earlier fit stored; after fit raises they are those of the previous fit.", "quantifier": "all maps, attributes, arguments, solvers, tapes and all earlier contents of the object", "why_tests_cant": "Tests look at labels_ after successful fits on fresh objects; order of assignments, stale values after failures and attributes never assigned do not show.", "anchors": ["region/p_regions/exact.py:PRegionsExact.fit_from_scipy_sparse_matrix", "region/p_regions/azp.py:AZP.fit_from_scipy_sparse_matrix", "region/p_regions/azp.py:AZPSimulatedAnnealing.fit_from_scipy_sparse_matrix", "region/max_p_regions/exact.py:MaxPRegionsExact.fit_from_scipy_sparse_matrix", "region/max_p_regions/heuristics.py:MaxPRegionsHeu.fit_from_scipy_sparse_matrix"]}
{"id": "C97", "title": "The exact methods accept exactly the documented arguments", "statement": "PRegionsExact checks n_regions (an integer from 1 to the number of areas), then method, then solver, then metric and raises the documented ValueError for the first bad one; MaxPRegionsExact checks metric, then solver; with good arguments the outcome is that of the chosen formulation, solver and metric, and a threshold array raises IndexError exactly if it is shorter than the number of spatially extensive attributes.", "quantifier": "all arguments, maps, attributes, solvers", "why_tests_cant": "Tests pass a few valid strings; they do not try combinations of bad arguments nor thresholds of the wrong length.", "anchors": ["region/p_regions/exact.py:PRegionsExact.fit_from_scipy_sparse_matrix", "region/max_p_regions/exact.py:MaxPRegionsExact.fit_from_scipy_sparse_matrix", "region/util.py:check_solver", "region/util.py:get_metric_function"]}
{"id": "C98", "title": "SKATER prunes a minimum spanning forest", "statement": "The forest from which SKATER starts links exactly the areas linked by borders with a non-zero dissimilarity; no collection of such borders without cycles that links the same areas has a smaller total dissimilarity, nor has any collection at all if no dissimilarity is negative; and areas that can be linked by borders of dissimilarity at most t are so linked in the forest.", "quantifier": "all maps, dissimilarities, affinities, data, orders among equal weights, thresholds t and competing collections of borders", "why_tests_cant": "Tests check a few label vectors on one data set; the number of spanning trees is exponential.", "anchors": ["region/skater/skater.py:Spanning_Forest.fit"]}
{"id": "C99", "title": "SKATER with more clusters refines SKATER with fewer", "statement": "If the same data are fitted with n_clusters a and b, a <= b, every cluster of the second result lies within a cluster of the first, its forest is part of the first forest and its trace continues the first trace.", "quantifier": "all maps, data, metrics, quorums, islands options and pairs a <= b including infinity", "why_tests_cant": "Tests fit one number of clusters at a time.", "anchors": ["region/skater/skater.py:Spanning_Forest.fit", "region/skater/skater.py:Spanning_Forest.find_cut"]}
{"id": "C100", "title": "A Spanning_Forest object is consistent", "statement": "After fit returns, current_labels_, minimum_spanning_forest_ and _trace belong to this fit; after it raises they are as before; score without labels scores the last fit (and equals the score of its last cut) or raises ValueError if there was none; make_cut without a forest cuts the forest of the object.", "quantifier": "all earlier contents of the object, maps, data, metrics, quorums and edges", "why_tests_cant": "Tests use every object once and read the labels only.", "anchors": ["region/skater/skater.py:Spanning_Forest.fit", "region/skater/skater.py:Spanning_Forest.score", "region/skater/skater.py:Spanning_Forest.make_cut"]}
{"id": "C101", "title": "Annealing returns without a limit on the iterations", "statement": "AZPSimulatedAnnealing.fit with max_iterations=float('inf') (the default) and a finite sa_moves_term returns a feasible clustering for every input.", "quantifier": "all undirected graphs, attributes, start clusterings, parameters and random draws", "why_tests_cant": "termination for all draws; false: with ties step b can alternate between two clusterings for ever; true if no area is equally dissimilar to two disjoint groups of areas", "anchors": ["region/p_regions/azp.py:AZPSimulatedAnnealing.fit_from_scipy_sparse_matrix"]}
{"id": "C102", "title": "SKATER without data cuts the forest in the order of its edges", "statement": "find_cut without data returns the first edge of the forest (in the order of the matrix) whose removal meets the quorum, with the score 0; fit without data and without a quorum removes the edges of its spanning forest in their order, one for every further cluster, with the score 0 each.", "quantifier": "all maps, forests, quorums, labels and target labels, numbers of clusters, and all metrics, centres and reductions that give equal rows the distance 0", "why_tests_cant": "all forests and numbers of clusters at once", "anchors": ["region/skater/skater.py:Spanning_Forest.find_cut", "region/skater/skater.py:Spanning_Forest.fit"]}
{"id": "C103", "title": "AZP can end with exactly the results of the published procedure", "statement": "Started from a feasible clustering, AZP can end with a clustering if and only if, on every island, the automatic zoning procedure as described by its authors can: regions are visited in any order, each takes in admissible areas that do not worsen the objective, in any order, until there is none, and passes are repeated as long as they improve the objective. As the local search of the Max-p heuristic it can end with exactly the results of one such pass restricted to areas their regions can spare.", "quantifier": "every map, start clustering without the label -1, symmetric dissimilarity, target clustering; some sequence of draws on the one side, some run of the procedure on the other", "why_tests_cant": "tests see a few seeds; neither the absence of other results nor the presence of all of them can be observed", "anchors": ["region/p_regions/azp.py:284-394", "region/p_regions/azp_util.py:28-70", "region/p_regions/azp_util.py:140-204"]}
{"id": "C104", "title": "Numbering the areas differently does not change what is possible", "statement": "Renumbering the areas (of the graph, the attributes and the start clustering alike) renumbers the set of clusterings AZP can return and changes nothing else; is_connected, assert_feasible and the objective function give the same answers. With fixed draws the clustering may change.", "quantifier": "every map, permutation of the areas and start clustering without the label -1", "why_tests_cant": "a test can only compare individual runs, and those do differ", "anchors": ["region/p_regions/azp.py:AZP.fit_from_scipy_sparse_matrix", "region/p_regions/azp.py:AZP._azp_connected_component", "region/util.py:assert_feasible", "region/csgraph_utils.py:is_connected"]}
{"id": "C105", "title": "The starts AZP draws are the ways to cut one fixed spanning forest", "statement": "For every map there is one spanning forest, depending on nothing but the map (and the order in which scipy visits equal weights), such that for every number p of regions the clusterings generate_initial_sol can yield are exactly those one gets by cutting links of that forest until p pieces are left, the pieces being numbered island after island and by their first areas. All of them are possible in spite of the best-of-five choice of the links, there are C(n-c, p-c) of them (c islands), and AZP.fit without initial labels ends with exactly the results of the automatic zoning procedure from such starts. For AZP with any strategy and objective and for both tabu searches, fit without initial labels can return exactly what it can return with such a start. If the map has no cycles these are all contiguous clusterings; in general they are not.", "quantifier": "every map, admissible number of regions, attribute array and sequence of draws", "why_tests_cant": "a test sees a few starts; neither that every cut is possible nor that some contiguous clusterings never are can be observed", "anchors": ["region/util.py:generate_initial_sol", "region/util.py:distribute_regions_among_components", "region/util.py:_randomly_divide_connected_graph", "region/p_regions/azp.py:AZP.fit_from_scipy_sparse_matrix", "region/p_regions/azp.py:AZPTabu"]}
{"id": "C106", "title": "Each cut of a start is the most balanced of five drawn links", "statement": "_randomly_divide_connected_graph cuts p-1 links of one spanning tree, one after the other. For each cut it draws five positions in the list of the remaining links and cuts the first of those links whose removal leaves the smallest largest piece; the labels number the pieces that are left, and exactly five numbers are drawn per cut. (A more balanced link that is not drawn is not considered.)", "quantifier": "every connected map, admissible number of regions and sequence of draws", "why_tests_cant": "a test would have to reconstruct the tree and the draws; a wrong comparison still yields contiguous regions", "anchors": ["region/util.py:_randomly_divide_connected_graph"]}
{"id": "C107", "title": "Without ties SKATER's clusters are determined by the map and the data", "statement": "No link of the forest fit prunes can be replaced by a detour over links between less different areas. If no two links join equally different areas, the forest consists of all such links; if moreover no two cuts are equally good, then fit returns the same clusters (by the same cuts, with the same scores, or the same error) whichever way equal entries are sorted and however the areas are numbered. With ties the clusters can depend on the order of equal entries.", "quantifier": "every map, data, numbering of the areas, order of equal entries, number of clusters, quorum, islands option; scores that are sums, centres that do not depend on the order of the rows", "why_tests_cant": "all permutations of the areas and all sorting orders at once", "anchors": ["region/skater/skater.py:Spanning_Forest.fit", "region/skater/skater.py:Spanning_Forest.find_cut", "region/skater/skater.py:Spanning_Forest.score"]}
{"id": "C108", "title": "fit is another name for fit_from_scipy_sparse_matrix", "statement": "In every class of estimators fit exists, runs the code of fit_from_scipy_sparse_matrix and has its docstring below a line calling it an alias; making the alias changes no other function; classes derived from these have the alias as well.", "quantifier": "every heap of functions; every class of estimators; every chain of subclasses", "why_tests_cant": "subclasses written later are not in the test suite; the suite calls the methods it knows", "anchors": ["region/util.py:copy_func", "region/p_regions/azp.py:AZP.fit", "region/p_regions/azp.py:AZPSimulatedAnnealing", "region/p_regions/exact.py:PRegionsExact.fit", "region/max_p_regions/exact.py:MaxPRegionsExact.fit", "region/max_p_regions/heuristics.py:MaxPRegionsHeu.fit"]}
{"id": "C109", "title": "Attributes of a decorated strategy", "statement": "An attribute that no decorator has itself is the attribute of the decorated strategy, bound to the decorated object, however many decorators there are, and is an AttributeError if the decorated strategy has none; an attribute a decorator has hides the decorated one; on an object whose __init__ has not run every unknown name leads to a RecursionError.", "quantifier": "every number of decorators, every decorated object, every name, every recursion limit", "why_tests_cant": "unboundedly many decorators and names", "anchors": ["region/p_regions/azp_util.py:AllowMoveAZPMaxPRegions.__getattr__"]}
{"id": "C110", "title": "all_elements_equal", "statement": "For an array with entries the answer is True exactly if any two entries are equal; for an empty array a ValueError is raised.", "quantifier": "every array of numbers", "why_tests_cant": "infinitely many arrays", "anchors": ["region/util.py:all_elements_equal"]}
{"id": "C111", "title": "Everything the construction phase of max-p can make", "statement": "With a symmetric map without self-loops, grow_regions can end with exactly the regions and enclaves of the described procedure: as long as there are free areas one of them is the seed of a region, which takes in a least dissimilar free area at its border until it reaches the thresholds or there is none, and the regions that do not reach them are set aside; assign_enclaves can end with exactly the partitions in which the areas set aside joined, one after the other and in any possible order, a least dissimilar one of the regions they border.", "quantifier": "every map, metric, attributes, thresholds, every sequence of random draws", "why_tests_cant": "the set of all outcomes over infinitely many tapes of random numbers cannot be enumerated by running", "anchors": ["region/max_p_regions/heuristics.py:MaxPRegionsHeu.grow_regions", "region/max_p_regions/heuristics.py:MaxPRegionsHeu.assign_enclaves", "region/max_p_regions/heuristics.py:MaxPRegionsHeu.find_best_area", "region/max_p_regions/heuristics.py:MaxPRegionsHeu.find_best_region_idx"]}
{"id": "C112", "title": "Everything the max-p heuristic can return", "statement": "With a symmetric map without self-loops, a metric, at least one iteration and AZP with the default strategy as local search (however many decorators with the same thresholds earlier calls of fit have left), fit can end with exactly the results of the described heuristic: k constructions; p is the largest number of regions in one of them; in the constructions with p regions the areas set aside are absorbed; each of the K resulting partitions is improved K times by a single pass over the regions on every island, in which areas that can be spared move without raising the dissimilarities; the result is the first one with the least dissimilarity.", "quantifier": "every map, metric, attributes, thresholds, number of iterations, every sequence of random draws", "why_tests_cant": "the set of all outcomes over infinitely many tapes of random numbers cannot be enumerated by running", "anchors": ["region/max_p_regions/heuristics.py:MaxPRegionsHeu.fit_from_scipy_sparse_matrix", "region/p_regions/azp_util.py:AllowMoveAZPMaxPRegions", "region/p_regions/azp.py:AZP._azp_connected_component"]}
{"id": "C113", "title": "Numbering of the areas and the max-p heuristic", "statement": "Renumbering the areas (map, attributes and spatially extensive attributes) renumbers the results the max-p heuristic can have, and changes nothing else.", "quantifier": "every map, metric, attributes, thresholds, number of iterations, every permutation of the areas", "why_tests_cant": "infinitely many maps, permutations and tapes", "anchors": ["region/max_p_regions/heuristics.py:MaxPRegionsHeu.fit_from_scipy_sparse_matrix"]}
{"id": "C114", "title": "The tabu searches return local optima", "statement": "When AZPBasicTabu or AZPReactiveTabu returns labels with the default strategy, no admissible move of a border area lowers the objective; the reactive search is a steepest descent.", "quantifier": "every symmetric map, start with contiguous regions, exact objective, every random tape; reactive: fresh objects, k1 >= 1, enough iterations; basic: every tabu length", "why_tests_cant": "every execution; false for the default tabu length of the basic search and for starts with value-neutral moves in the reactive one, true for short tabu lists", "anchors": ["region/p_regions/azp.py:AZPBasicTabu._azp_connected_component", "region/p_regions/azp.py:AZPReactiveTabu._azp_connected_component"]}
{"id": "C115", "title": "The exact methods tolerate the integrality tolerance of the solver", "statement": "If the values the solver leaves in the variables differ from a solution of the integer program by no more than a tolerance below one half, the flow, order and tree methods of PRegionsExact and MaxPRegionsExact return the labels of that solution.", "quantifier": "all graphs, dissimilarities, numbers of regions, quotas, solutions, tolerances and values within them", "why_tests_cant": "the values of a real solver are exact on small inputs; a value of 0.9999999 appears only on some large ones", "anchors": ["region/p_regions/exact.py:406-411", "region/p_regions/exact.py:492-498", "region/p_regions/exact.py:585-598", "region/max_p_regions/exact.py:158-163"]}
{"id": "C116", "title": "Everything the exact methods can return", "statement": "With solvers that work, the order and the tree method can return exactly the clusterings into n_regions contiguous regions of least heterogeneity, with any assignment of the names 0 … n_regions-1; the flow method exactly the best without a region of more than n_areas - n_regions areas; MaxPRegionsExact exactly the clusterings with the most regions and then the least heterogeneity, with names below the number of areas and name 0 for the region of the first area.  Numbering the areas differently does not change what the order method can return.", "quantifier": "all symmetric adjacency matrices, attributes and metrics with non-negative dissimilarities, all n_regions with a feasible clustering (at least two fewer than areas for order and tree), all quotas given as numbers or arrays, all correct solvers", "why_tests_cant": "tests run one solver and see one of the optimal results", "anchors": ["region/p_regions/exact.py:45-598", "region/max_p_regions/exact.py:33-165"]}
{"id": "C117", "title": "Fitting changes none of the caller's label arrays and returns a new one", "statement": "Fitting AZP, AZPBasicTabu, AZPReactiveTabu or MaxPRegionsHeu leaves the elements of every array that existed before the call as they were, whether fit returns or raises; labels_ is a new array, not the array passed as initial_labels, and holds exactly the labels computed by the model that treats arrays as values.", "quantifier": "all maps, attributes, numbers of regions, initial labels, metrics, centers and reductions, both objective classes, all random tapes, all memory contents, every outcome", "why_tests_cant": "aliasing shows only when a test keeps the argument and compares it afterwards, and only on the paths that write in place", "anchors": ["region/p_regions/azp.py:AZP._azp_connected_component", "region/p_regions/azp.py:AZP.fit_from_scipy_sparse_matrix", "region/util.py:separate_components", "region/objective_function.py:95-165", "region/max_p_regions/heuristics.py:90-125"]}
{"id": "C118", "title": "labels_ of AZPSimulatedAnnealing is a new array", "statement": "After AZPSimulatedAnnealing.fit, labels_ is an array of its own; changing the array passed as initial_labels later does not change it.", "quantifier": "all maps, attributes, parameters, initial labels, objective functions, random tapes, memory contents", "why_tests_cant": "false exactly when no run of AZP takes place (max_iterations or nonmoving_steps_before_stop is 0): then labels_ is the caller's array", "anchors": ["region/p_regions/azp.py:AZPSimulatedAnnealing.fit_from_scipy_sparse_matrix"]}
{"id": "C119", "title": "ObjectiveFunctionCenter.update leaves the labels as it found them", "statement": "After a call of ObjectiveFunctionCenter.update the array of labels has the same elements as before, whether the call returns or raises.", "quantifier": "all labels, areas, recipient regions, metrics, centers, reductions", "why_tests_cant": "false exactly when the only area of a region is moved to another region that has areas; the exception hides the changed array", "anchors": ["region/objective_function.py:146-165"]}
{"id": "C120", "title": "AZP ends under every floating-point rounding", "statement": "AZP.fit with the strategies of the library, and AZPSimulatedAnnealing.fit with a finite maxit, return for every way in which the additions to objective_val, the sums of the Max-p test and the acceptance probability are rounded, and for every objective function whose update does not raise, even if its values and updates do not fit together. The result of AZP is feasible, has the requested number of regions and keeps the given region labels. More generally this holds for any strategy object whose objective_val only takes finitely many values.", "quantifier": "for all undirected graphs, data, objectives with values in a finite set of numbers, arithmetics whose additions yield numbers of that set, feasible starts or admissible numbers of regions, and random draws; nan and inf excluded", "why_tests_cant": "Rounding could make the stored objective value go down while the clustering goes round in a circle; whether the outer loop ends then depends on long chains of rounding errors that no test run reaches.", "anchors": ["region/p_regions/azp.py:332", "region/p_regions/azp_util.py:66", "region/p_regions/azp_util.py:90", "region/p_regions/azp_util.py:102", "region/p_regions/azp_util.py:191"]}
{"id": "C121", "title": "AZP ends whatever the reduction of ObjectiveFunctionCenter", "statement": "AZP.fit with ObjectiveFunctionCenter returns from every feasible start, for every reduction. (False: with reduction=max, update only looks at the two regions of a move; the values it returns along a closed chain of moves can add up to a negative number, and AZP then goes round for ever. Proved: the reductions whose value for two numbers is a multiple of their sum, such as sum, mean and median; more generally every objective whose update is the change of some function of the labels. With reduction=mean, update is the change of the objective times half the number of regions.)", "quantifier": "for all undirected graphs, data, metrics, centers and random draws", "why_tests_cant": "The endless run needs a certain map and certain draws; a test with other draws ends.", "anchors": ["region/objective_function.py:ObjectiveFunctionCenter", "region/p_regions/azp.py:AZP._azp_connected_component"]}
{"id": "C122", "title": "Only which areas border each other matters, not the weights of the adjacency matrix", "statement": "For every adjacency matrix of weights: neighbors lists exactly the areas with a value different from zero; is_connected, sub_adj_matrix, assert_feasible and separate_components give the same for all matrices with the same bordering areas, and generate_initial_sol yields exactly n_regions contiguous regions whatever the weights are. False with explicitly stored zeros: these count as borders in connected_components and the feasibility check but not in neighbors, so that a region that is not contiguous is accepted, two islands are treated as one and three regions are generated when two are requested.", "quantifier": "all square sparse matrices with rational values, all node lists, labels, numbers of regions, random draws, tie orders of the spanning tree and both behaviours of scipy's indexing", "why_tests_cant": "The tests only use 0/1 matrices; weights decide which spanning tree is cut, and stored zeros (edges of weight 0 of a networkx graph, zero weights of a W) are never tried.", "anchors": ["region/csgraph_utils.py:12-126", "region/util.py:587-706", "region/util.py:736-848"]}
{"id": "C123", "title": "SKATER only looks at who is listed as neighbor in W", "statement": "The outcome of Spanning_Forest.fit depends on the W object only through the lists of neighbors: weights (also the weight 0) and the transformation of W play no role.", "quantifier": "all W objects, weights, data, metrics, quorums, numbers of clusters, tie orders", "why_tests_cant": "Tests use binary contiguity weights only.", "anchors": ["region/skater/skater.py:70-82"]}
{"id": "C124", "title": "SKATER leaves the W object of the caller as it was", "statement": "Spanning_Forest.fit does not change the W object it is given. False: as soon as the metric has returned W is transformed to binary weights in place, and stays so; neighbors of weight 0 become neighbors for the other methods.", "quantifier": "all W objects and arguments", "why_tests_cant": "Tests do not look at W after the fit, and use W objects that are binary already.", "anchors": ["region/skater/skater.py:70-76"]}
{"id": "C125", "title": "One-way contiguity", "statement": "On contiguity matrices that are not symmetric (A lists B as a neighbour, B does not list A; for example k-nearest-neighbour weights) the methods return contiguous regions like on symmetric ones. False for AZP, simulated annealing and max-p: AZP returns the requested number of regions with the labels of the start, on their islands and with an objective that is not worse, but regions can be broken apart; annealing then raises ValueError, grow_regions can raise, and the order model can be infeasible although a clustering exists. True for basic tabu, a fresh reactive tabu object, and what the order and tree models return.", "quantifier": "all adjacency matrices, attributes, strategies, starts and random draws", "why_tests_cant": "The tests use symmetric lattices only.", "anchors": ["region/p_regions/azp.py:322-394", "region/max_p_regions/heuristics.py:345-410", "region/p_regions/exact.py:414-480", "region/csgraph_utils.py:43-72"]}
{"id": "C126", "title": "The helper functions of the tests judge results correctly", "statement": "region_list_from_array returns exactly the regions of a labelling as sets, each once and ordered by the smallest area; compare_region_lists passes exactly when both lists name the same regions, so that a test of a method passes if and only if the labels obtained describe the expected regions, whatever the labels are called. True for the way the tests use the two functions; compare_region_lists by itself accepts a list that names one region twice and leaves another one out.", "quantifier": "all numbers of areas and all labellings; all lists of sets of areas", "why_tests_cant": "The helpers are what the tests rely on; no test looks at them.", "anchors": ["region/tests/util.py:4-22", "region/tests/util.py:25-59"]}
{"id": "C127", "title": "The examples of the test suite come out right for every seed", "statement": "On the data of the tests (nine areas of Duque et al. in a 3x3 lattice, two regions; four areas in a 2x2 lattice for max-p) the methods return the expected regions whatever the random draws and the feasible start: the tests, which fix one seed, pass for every seed. True for AZP, for the exact methods with any correct solver, for both max-p methods, for the basic tabu search with any list length and number of repetitions, and for the reactive tabu search with at least six iterations. False for the reactive tabu search with the five iterations the tests use: a seed exists for which the test would fail. Simulated annealing with the parameters of the tests returns the expected regions for all random numbers but 0.0; with zeros at the right places it need not.", "quantifier": "all random draws, all fuels above the bound, all feasible starts, all correct solvers, all tabu and annealing parameters, all positive multiples of the dissimilarities", "why_tests_cant": "The tests fix random_state=0 and one solver.", "anchors": ["region/p_regions/tests/data.py:13-34", "region/p_regions/tests/test_azp.py:25-123", "region/p_regions/tests/test_azp_basic_tabu.py:20-60", "region/p_regions/tests/test_azp_reactive_tabu.py:20-60", "region/p_regions/tests/test_azp_simulated_annealing.py:24-120", "region/p_regions/tests/test_exact.py:1-60", "region/max_p_regions/tests/data.py:37-60"]}
{"id": "C128", "title": "Simulated annealing: all possible results", "statement": "On any map and from a feasible start, the clusterings AZPSimulatedAnnealing.fit can return are exactly the results of the following procedure with all choices left open. At a temperature t the zoning procedure is repeated until it changes nothing, has been started max_iterations times, or sa_moves_term worsening moves have been made; a worsening move by d can be made iff exp(-d/t) > 0 and passed over iff exp(-d/t) < 1; then t is cooled. It ends when nothing moved at nonmoving_steps temperatures or a clustering has been seen repetitions_before_termination times before. When no worsening move is more probable than the smallest number drawn, the result is feasible and not worse than the start. With several islands, the islands are treated independently of each other and their worsening moves are counted together. Without initial labels the results are exactly those of the procedure started from any clustering one gets by cutting links of a spanning forest.", "quantifier": "all maps (connected ones with any objective with exact updates, those with islands with a pairwise objective), attributes, functions in place of exp, parameters, feasible starts, object histories and random draws", "why_tests_cant": "A run shows one result of a randomised procedure; that every described result occurs and no other quantifies over all seeds.", "anchors": ["region/p_regions/azp.py:615-662", "region/p_regions/azp.py:112-181", "region/p_regions/azp_util.py:72-143"]}
{"id": "C129", "title": "The tests of the helper functions", "statement": "test_random_element_from and test_pop_randomly_from never fail an assertion on the length of the list; they pass iff two of the draws differ, so of the m^k sequences of k draws from m elements exactly m make them fail. The tests of assert_feasible pass, with the messages they look for. On one area AZP._azp_connected_component returns the labels it is given and draws nothing.", "quantifier": "all list lengths, numbers of draws, sequences of draws; for one area all labels, strategies and draws", "why_tests_cant": "A test cannot say for which seeds it fails itself.", "anchors": ["region/tests/test_util.py:9-97", "region/util.py:736-769", "region/util.py:851-858"]}
{"id": "C130", "title": "All results of the basic tabu search", "statement": "AZPBasicTabu.fit can end with exactly the clusterings that the following procedure can produce on every island. In each round the clustering is noted, and the search is marked to end once the same clustering has been seen repetitions_before_termination times before. If some non-tabu admissible move does no harm, the one with the smallest value is made; ties go to the earliest area and then to the region of its earliest neighbour. Otherwise, if the search is not marked, some improving tabu move is tried (any of them), and then the formerly best move again if it does no harm now; if the search is marked, some improving tabu move is tried and the search ends. A move of an area that would break contiguity is not made, but the way back is forbidden all the same; only the last tabu_length forbidden moves count. Without initial labels the procedure starts from the cuts of a spanning forest. With tabu_length=0 there is at most one result; with the default parameters there can be several, of different quality.", "quantifier": "all maps with any number of islands, all attributes, all dissimilarities as metric, all tabu lengths and numbers of repetitions, all random numbers, feasible initial labels other than -1 or none; default objective and strategy", "why_tests_cant": "Tests see a few of the possible results of a randomised search; that nothing else can be returned, and that everything described can be, is a statement about all random numbers.", "anchors": ["region/p_regions/azp.py:732-861", "region/p_regions/azp.py:676-730", "region/util.py:839-858"]}
{"id": "C131", "title": "The result of the reactive tabu search", "statement": "On a new AZPReactiveTabu object with k1 >= 1 and max_iterations >= 1, fit on a connected map with two or more regions returns exactly the result of the following procedure, and raises AttributeError exactly if the procedure has no move left. In each round the admissible move with the smallest value, other than the way back of the last move, is made if it does no harm; ties go to the earliest area and then to the region of its earliest neighbour. A move that would break contiguity is not made, but its way back is forbidden all the same. The rounds end with the first one that is no improvement, or with round number max_iterations. The result is the clustering before this last round, or after it if it was the first. This holds for every objective function that is updated correctly. On a map with islands they are worked on in the order of their first areas; an island whose first round is its last gets the clustering recorded last for an earlier island, area by area, and ValueError is raised exactly if that one has not as many areas. Nothing else can happen: neither the random numbers nor k1 nor k2 are of any importance for given initial labels; without initial labels the procedure starts from the cuts of a spanning forest. With max_iterations = 0 a component with several regions raises UnboundLocalError.", "quantifier": "all symmetric maps, all attributes, all dissimilarities as metric (on connected maps every exact and total objective), all max_iterations, k1 >= 1 and k2, all random numbers, feasible initial labels other than -1 or none; new objects, default strategy", "why_tests_cant": "Tests see single runs; that the parameters k1 and k2 and the random state never matter, and which runs raise, are statements about all inputs.", "anchors": ["region/p_regions/azp.py:907-1046", "region/p_regions/azp.py:676-730", "region/p_regions/azp.py:58-110"]}
{"id": "C132", "title": "Everything the max-p heuristic can return with the basic tabu search", "statement": "With AZPBasicTabu as local search, MaxPRegionsHeu.fit can end with exactly the results of the heuristic described in C112 in which each partition is improved, on every island, by the following search. In each round the clustering is noted, and the search is marked to end once the same clustering has been seen repetitions_before_termination times before. The best of all non-tabu moves (smallest value, then earliest area, then earliest neighbour) is looked at, whether or not its area can be spared. If it does no harm and its area can be spared, it is made. Otherwise some improving tabu move is chosen and tried if its area can be spared; then the search ends if it is marked, and else the best move is tried again if that is permitted now. So a search from a start in which the best move takes an area that cannot be spared moves nothing at all, whatever other permitted improvements there are.", "quantifier": "every symmetric map without self-loops, with any number of islands, every dissimilarity as metric, attributes, non-negative quantities, thresholds, number of iterations, tabu length and number of repetitions, every sequence of random draws, however many decorators earlier calls of fit have left", "why_tests_cant": "The set of all outcomes over infinitely many tapes of random numbers cannot be enumerated by running.", "anchors": ["region/max_p_regions/heuristics.py:MaxPRegionsHeu.fit_from_scipy_sparse_matrix", "region/p_regions/azp.py:AZPBasicTabu._azp_connected_component", "region/p_regions/azp_util.py:AllowMoveAZPMaxPRegions"]}
{"id": "C133", "title": "The max-p heuristic returns", "statement": "MaxPRegionsHeu.fit returns with every local search if every island can carry a region: with AZPBasicTabu a clustering into contiguous regions that all reach the threshold, with AZPSimulatedAnnealing a clustering into contiguous regions, in both cases as many regions as the construction phase found. (This is false for AZPBasicTabu on data with ties: on four equal areas in a star the heuristic never returns, whatever the draws. It is false for AZPReactiveTabu: the heuristic always comes to an end, but if every area of a connected map reaches the thresholds alone it ends with an exception, whatever the draws. For AZPSimulatedAnnealing without a limit on the iterations it holds for data without ties.)", "quantifier": "every symmetric map without self-loops, with any number of islands each of which reaches the thresholds in total, every dissimilarity as metric, attributes, non-negative quantities, thresholds, number of construction runs, tabu length, number of repetitions, annealing parameters with a positive number of moves, and every sequence of random draws", "why_tests_cant": "Termination for all inputs and all random draws, and non-termination, cannot be observed by running.", "anchors": ["region/max_p_regions/heuristics.py:MaxPRegionsHeu.fit_from_scipy_sparse_matrix", "region/p_regions/azp.py:AZPBasicTabu._azp_connected_component", "region/p_regions/azp.py:AZPReactiveTabu._azp_connected_component", "region/p_regions/azp.py:AZPSimulatedAnnealing.fit_from_scipy_sparse_matrix"]}
{"id": "C134", "title": "The weights of the adjacency matrix do not matter for the clustering", "statement": "AZP, AZPBasicTabu, AZPReactiveTabu and AZPSimulatedAnnealing only use which areas border each other: a matrix of weights (binary, row-standardised, distances) gives the same labels, exceptions and draws as the 0/1 matrix. (From given initial labels this holds for every matrix without stored zeros. From scratch the weights decide which spanning tree is cut, so the result can differ, but on a connected map it is the result for the 0/1 matrix with another order of the links, and on every map AZP returns contiguous regions in the requested number. With stored zeros it is false: AZP can turn contiguous regions into non-contiguous ones, unless indexing drops stored zeros.)", "quantifier": "every square sparse matrix of rational weights of any size, any number of islands, all attributes, exact objectives, numbers of regions, initial labels, strategies, parameters of the classes, visiting orders of equal weights and sequences of random draws", "why_tests_cant": "All weightings and all runs are infinitely many; the tests only use 0/1 matrices.", "anchors": ["region/p_regions/azp.py:AZP.fit_from_scipy_sparse_matrix", "region/p_regions/azp.py:AZP._azp_connected_component", "region/p_regions/azp.py:AZPBasicTabu._azp_connected_component", "region/p_regions/azp.py:AZPReactiveTabu._azp_connected_component", "region/p_regions/azp.py:AZPSimulatedAnnealing.fit_from_scipy_sparse_matrix", "region/csgraph_utils.py:neighbors", "region/csgraph_utils.py:sub_adj_matrix"]}
{"id": "C135", "title": "The columns of the attribute table", "statement": "The order of the columns of the attributes, a column in which all areas have the same value, and constants added to columns make no difference to the result of any of the classes (default metric, same random draws, same solver).", "quantifier": "all maps, attribute tables, permutations of columns, constant columns, parameters, random tapes and solvers", "why_tests_cant": "A relation between two runs for all inputs. The tests use one or two fixed columns; that a constant column changes the result of PRegionsExact is only seen by comparing two runs.", "anchors": ["region/p_regions/azp.py:AZP.fit_from_scipy_sparse_matrix", "region/max_p_regions/heuristics.py:MaxPRegionsHeu.fit_from_scipy_sparse_matrix", "region/max_p_regions/exact.py:MaxPRegionsExact.fit_from_scipy_sparse_matrix", "region/p_regions/exact.py:PRegionsExact.fit_from_scipy_sparse_matrix", "region/skater/skater.py:Spanning_Forest.fit"]}
{"id": "C136", "title": "AZPBasicTabu works with every objective function of the library", "statement": "From a feasible start AZPBasicTabu with ObjectiveFunctionCenter (as with ObjectiveFunctionPairwise, C34) does not raise, and what it returns is a clustering into the requested number of contiguous regions.", "quantifier": "all maps, attributes, metrics, centres and reductions, starts, tabu lengths, termination parameters and random draws", "why_tests_cant": "The aspiration step evaluates moves from earlier rounds; whether one of them would empty a region depends on the whole run. The tests only use the default objective.", "anchors": ["region/p_regions/azp.py:AZPBasicTabu._azp_connected_component", "region/objective_function.py:ObjectiveFunctionCenter.update", "region/p_regions/azp_util.py:AllowMoveAZP.__call__"]}
{"id": "C137", "title": "The tabu searches end with machine numbers", "statement": "AZPReactiveTabu and, on data without ties, AZPBasicTabu come to an end however the dissimilarities are rounded.", "quantifier": "all objectives (reactive); all data without ties and all ways of rounding dissimilarities (basic); all parameters and draws", "why_tests_cant": "Termination for all ways of rounding; a loop caused by rounding needs unlucky data.", "anchors": ["region/p_regions/azp.py:AZPBasicTabu._azp_connected_component", "region/p_regions/azp.py:AZPReactiveTabu._azp_connected_component"]}
{"id": "C138", "title": "The max-p heuristic only looks at which areas border each other", "statement": "MaxPRegionsHeu gives the same result for two adjacency matrices that agree in which entries are different from zero, and its regions are contiguous in the sense of these entries.", "quantifier": "all matrices (weights, stored zeros), attributes, thresholds, local searches with all their parameters, and draws", "why_tests_cant": "Adjacency matrices in tests are 0/1 matrices; weights and stored zeros make infinitely many variants of every map.", "anchors": ["region/max_p_regions/heuristics.py:MaxPRegionsHeu.fit_from_scipy_sparse_matrix", "region/max_p_regions/heuristics.py:MaxPRegionsHeu.grow_regions", "region/max_p_regions/heuristics.py:MaxPRegionsHeu.assign_enclaves"]}
{"id": "C139", "title": "Areas listed as their own neighbors make no difference", "statement": "Two adjacency matrices that differ only on the diagonal give the same result for every class of the package: an area being its own neighbor means nothing for contiguity.", "quantifier": "all symmetric adjacency matrices (any number of islands), attributes, objective functions, strategies, numbers of regions, initial labels and draws; all working solvers", "why_tests_cant": "Adjacency matrices in the tests have an empty diagonal; the property compares all runs on infinitely many pairs of matrices.", "anchors": ["region/p_regions/azp.py:AZP.fit_from_scipy_sparse_matrix", "region/p_regions/azp.py:AZPBasicTabu._azp_connected_component", "region/p_regions/exact.py:PRegionsExact.fit_from_scipy_sparse_matrix", "region/max_p_regions/heuristics.py:MaxPRegionsHeu.grow_regions", "region/util.py:generate_initial_sol", "region/skater/skater.py:Spanning_Forest.fit"]}
{"id": "C140", "title": "The units of the spatially extensive attributes do not matter", "statement": "Multiplying a column of the spatially extensive attributes and its threshold by the same positive number changes neither max_p nor the labels (nor the exception) of the max-p heuristic with any of the four local searches, for the same random draws, also if the attributes are converted at the same time; nor the set of labels the exact method can return, nor when it raises.", "quantifier": "all maps, attributes, columns, positive factors per column, thresholds, local searches, parameters and random tapes; every correct solver", "why_tests_cant": "A relation between two runs for all inputs; the attribute is summed and compared while growing, in the move filter, and in the constraints of the integer program.", "anchors": ["region/max_p_regions/heuristics.py:MaxPRegionsHeu.fit_from_scipy_sparse_matrix", "region/max_p_regions/heuristics.py:MaxPRegionsHeu.grow_regions", "region/p_regions/azp_util.py:AllowMoveAZPMaxPRegions.__call__", "region/max_p_regions/exact.py:MaxPRegionsExact.fit_from_scipy_sparse_matrix"]}
{"id": "C141", "title": "A lower threshold never costs regions", "statement": "If the threshold is lowered, max_p does not become smaller: neither for the exact method, nor for the heuristic with the same random draws.", "quantifier": "all maps, attributes, thresholds and correct solvers", "why_tests_cant": "A relation between two runs for all inputs and all solvers.", "anchors": ["region/max_p_regions/exact.py:MaxPRegionsExact.fit_from_scipy_sparse_matrix", "region/max_p_regions/heuristics.py:MaxPRegionsHeu.fit_from_scipy_sparse_matrix"]}
{"id": "C142", "title": "Extreme thresholds of the max-p problem", "statement": "If every area reaches the thresholds alone, max_p is the number of areas and every area becomes a region of its own; if the total of a column does not suffice for two regions (and a feasible clustering exists), all areas end up in one region: for the exact method and for the heuristic with every local search, whatever the random draws.", "quantifier": "all maps, attributes, thresholds, settings, correct solvers and random tapes", "why_tests_cant": "All inputs and draws; the local search must not undo what the construction did.", "anchors": ["region/max_p_regions/heuristics.py:MaxPRegionsHeu.fit_from_scipy_sparse_matrix", "region/max_p_regions/heuristics.py:MaxPRegionsHeu.grow_regions", "region/max_p_regions/exact.py:MaxPRegionsExact.fit_from_scipy_sparse_matrix", "region/p_regions/azp.py:AZPReactiveTabu"]}
{"id": "C143", "title": "As many regions as areas", "statement": "Asked for as many regions as there are areas, every method makes each area a region of its own: AZP, simulated annealing and tabu search from scratch, the three exact p-regions methods, and SKATER without a quorum.", "quantifier": "all maps with at least two areas, attributes, settings, solvers and random tapes", "why_tests_cant": "A single answer is right for all inputs and draws; tests use far fewer regions than areas.", "anchors": ["region/p_regions/azp.py:AZP.fit_from_scipy_sparse_matrix", "region/p_regions/azp.py:AZPReactiveTabu", "region/p_regions/exact.py:PRegionsExact.fit_from_scipy_sparse_matrix", "region/skater/skater.py:Spanning_Forest.fit"]}
