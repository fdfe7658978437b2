# Formal model of pysal/region

## 1. Trusted base

* The Lean 4.33.0 kernel and the three standard axioms `propext`, `Classical.choice`,
  `Quot.sound`. No other axiom, no `sorry`, no `native_decide`, no `bv_decide`.
* The hand translation of the Python source into the definitions in `lean/Verif/Model/*`.
  Every definition cites the file and lines it transcribes and says where it simplifies.
* The documented behaviour of the libraries the code calls, as modelled in
  `Model/Csgraph.lean` etc. (scipy `connected_components` and `minimum_spanning_tree`,
  numpy indexing, Python lists/sets/dicts/deques, `random`, pulp).

### Modelling decisions

* Python exceptions are values: `Res α = ok a | raise e | timeout`. `timeout` means that the
  fuel (number of loop iterations the run was observed for) ran out, i.e. "still running".
  Theorems about results say `= .ok s → P s` for every amount of fuel; separate theorems
  say "never raises" and "some amount of fuel suffices" (termination).
* Randomness: `random.randrange(k)` and `random.random()` read successive cells of an
  arbitrary tape `Nat → Nat`. Theorems quantify over every tape, that is over every seed and
  every possible outcome. `math.exp` is an arbitrary function parameter.
* Numbers: exact rationals `ℚ`. Floats are rationals but the rounding of sums is only
  modelled in `Model/Arith.lean` (C120). `NaN` (mean of an empty region) and infinities appear as `Option`/`WithTop`
  values where the code can meet them.
* A sparse adjacency matrix is its pattern of non-zero entries `Fin n → Fin n → Bool`
  without explicitly stored zeros. It need not be symmetric unless a theorem says so. `Model/Sparse.lean`
  models the graph functions once more on matrices with values and stored zeros (C122); there, scipy's
  `nonzero` drops stored zeros, `connected_components` counts them and `minimum_spanning_tree` removes them at
  the end; whether indexing keeps them is a parameter. `Model/SparseAzp.lean` does the same for the four
  classes of azp.py (C134) and for the max-p heuristic (C138), where libpysal's `WSP(adj).to_W().neighbors` is
  assumed to list every stored column, stored zeros included.
* `W.transform = 'b'` gives every listed neighbor the weight 1 (`Model/SkaterWeights.lean`, C123, C124).
* `scipy.sparse.csgraph.connected_components` is modelled by a merge procedure with labels in
  order of first appearance, and proved to compute connectivity; it is not trusted as a spec.
* Python `set`s and `dict`s of small integers: where only the set of elements matters they
  are lists/Finsets; where the code iterates over them, the iteration is in increasing order
  (CPython's order for sets of small non-negative ints). Where the order matters only through a later
  random choice, the arbitrary tape already covers every order.
* MIP problems (pulp): a deep embedding of variables, linear expressions and constraints. The
  solver is a parameter that maps a problem to values; theorems state what they assume about it
  (feasible, or optimal) as hypotheses. `10**h` and `log10` in the max-p program are exact.
* `minimum_spanning_tree`: Kruskal over an arbitrary order of the edges (sorted by weight for
  SKATER, arbitrary for AZP's unweighted case), so every tie-breaking rule is covered.
* SKATER: `-log` in the affinity branch is an arbitrary function; an infinite score is `none`;
  metrics reject empty arrays; warnings and timings are ignored.
* Attributes of the objects: `Model/Objects.lean` runs each `fit` in a monad that keeps the attributes when
  an exception is raised, in the order of the assignments of the source.
* Reactive tabu search: the state of the search object after an exception is not modelled. The reseeding by
  `AZP()` inside `MaxPRegionsHeu` is covered by the arbitrary tape (`c94_default_covered`, `c94_sa_covered`).
* `random.seed(a)` starts an arbitrary tape `mt a`; `random.seed(None)` an arbitrary tape supplied by the
  operating system (`Model/Seed.lean`).
* Adapters: a dict is its list of items in insertion order, a networkx graph its nodes in insertion
  order with unweighted edges, a data frame its index and columns. A `W` object is its dict
  of neighbors with its `id_order` and unit weights; `W.from_dataframe` numbers areas by the rows of the
  frame, and which rows touch is a parameter (`Model/Pysal.lean`). Attribute values are numbers or lists of numbers. `collections.Iterable`, `np.float` and
  `pulp.solvers` are taken to exist, i.e. the library versions of the time.
* Arrays are values, except in `Model/Memory.lean`, which follows the searches once more with label arrays at
  addresses of a memory; attribute arrays and adjacency matrices, which these functions only read, stay values.
* Not modelled: printing, docstrings, the geometry computations of libpysal/geopandas, the
  internals of the MIP solvers, plotting, performance, integer overflow, float rounding (but see C120), a
  scalar spatially extensive attribute with a threshold that is not a number.

### Layout

* `Verif/Basic.lean` – results, exceptions, tapes.
* `Verif/Spec.lean` – independent specification vocabulary (paths, contiguity, feasible
  clusterings, pairwise objective …); uses nothing from the model.
* `Verif/SpecAdapters.lean` – the same for dicts, graphs and arrays (items, rows in key order …).
* `Verif/Model/*.lean` – the translation, one file per Python file.
* `Verif/Lemmas/*.lean` – supporting lemmas.
* `Verif/Props/*.lean` – the property theorems named in `MANIFEST.json`, with non-vacuity examples
  and counterexample witnesses.

## 2. Plan per property

(P = to be proved as stated; N = the code violates the statement, the negation will be proved with a
concrete witness next to a `_partial` theorem that says what does hold.)

| id | what is modelled | how it is proved |
|----|------------------|------------------|
| C01 P | `is_connected`, `connected_components` | invariant of the merge loop: class = connected component; number of first nodes = 1 iff connected |
| C02 P | `neighbors`, `sub_adj_matrix` | list/array induction; combined with C01 gives contiguity of a node set |
| C03 P | `separate_components` | from C01 |
| C04 P | `assert_feasible`, `boolean_assert_feasible` | C01+C02, induction over the set of labels |
| C05 P | `distribute_regions_among_components` | loop invariant: given + remaining = size per component |
| C06 P | `_randomly_divide_connected_graph` on any spanning forest (and Kruskal as instance) | removing a bridge adds exactly one component |
| C07 P | `generate_initial_sol` | C05+C06 |
| C08 N | `AZP.fit`, n_regions=1 | evaluation of the model, for every graph |
| C09 P | `array_from_region_list` | fold invariant |
| C10 P | `find_sublist_containing` | list induction |
| C11 P | `count` via unique/counts | list induction |
| C12 N/partial | `array_from_dict_values` | flat output always right; 2-D output right iff as many keys as dict entries |
| C13 P | `scipy_sparse_matrix_from_dict` | fold over the dict |
| C14 P | dict adapters | from C12, C13; rows by sorted key in each |
| C15 N | networkx adapter | witness: two nodes inserted in reverse order; positive when insertion order is sorted |
| C16 P | `random_element_from`, `pop_randomly_from` | case analysis on tape |
| C17 P/N | validation and dispatch | string case analysis; default metric is manhattan |
| C18 P | pairwise objective | sum over combinations = sum over pairs |
| C19 P | pairwise update | finite sum algebra |
| C20 P/N | center update | sum reduction exact; max witness |
| C21 P | `AZP.fit`, `_azp_connected_component` for an arbitrary strategy record | loop invariants for all tapes and fuel |
| C22 P | + `generate_initial_sol` | C07 + C21 |
| C23 P | default strategy | invariant |
| C24 P | all loops | measure: recipient grows; strictly decreasing objective over finitely many labelings |
| C25 P | `region_neighbors` bookkeeping | invariant, symmetric adjacency |
| C26 N/partial | outer loop | witness run; positive for passes without moves |
| C27 P | strategies | invariant |
| C28 P | `AZP.fit` | invariant per component |
| C29–C32 P | simulated annealing | built on the AZP theorems, pigeonhole for C30 |
| C33–C35 P | tabu moves | case analysis; argmin invariant |
| C36 N | basic tabu loop | cycling state: same state after a period, so never returns |
| C37–C39 | reactive tabu | invariants; witnesses for the failures |
| C40 P/N | max-p move filter | sums; witness with negative attribute |
| C41–C43 P | max-p construction and local search | loop invariants for all tapes |
| C44–C46 N | strategy decoration | evaluation/invariants of the decorated strategy |
| C47 P | greedy choice | argmin |
| C48–C55 | the three p-regions integer programs as predicates on variable assignments | soundness by potential/flow arguments, completeness by explicit construction |
| C56–C58 | max-p integer program | same; `10^h` larger than the total dissimilarity |
| C59–C66 | SKATER on an arbitrary spanning forest | bridge removal; greedy loop invariant |
| C67–C69 | tabu searches: local optima, incumbent, number of regions | invariants; witness runs |
| C70–C72 | exact fits as a whole | from C48–C58; witnesses for infeasible programs reported as results |
| C73–C76 | SKATER: which cluster is split, the score, malformed cuts | case analysis; witnesses |
| C77–C83 | adapters and validation | list inductions over items; witnesses |
| C84–C87 P | the algorithms against each other and against other numbers of regions or iterations | splitting a contiguous set at an area; optimality (C54, C57) applied to what the heuristics return |
| C88 P | the units in which attributes are measured | two runs related step by step (`Res.Rel`): same labels, same tape, values and temperature times `c` |
| C89 P | steps 6, 7, 10 and 11 of the reactive tabu search | the history searched for the sequence since the last repetition (`Spec.SinceLast`, `Spec.earlierOccasions`) |
| C90, C91 | what constructors and adapters reject; nothing to do | case analysis; contiguous clusterings with as many regions as islands are the islands (counting) |
| C92 N | one object used for several fits | two runs related step by step; witnesses for annealing and reactive tabu |
| C93 P | the names of the regions in `initial_labels` | two runs related by an injective renaming of the labels; witnesses that the order matters to AZP and that -1 is special |
| C94 N | `random_state` | every run reads a finite prefix of the tape (`Reads`); seeding in the course of a run gives a run on some tape (`Covered`); witnesses for max-p, for objects constructed in between and for second fits |
| C95 | `fit_from_w`, `fit_from_geodataframe` | matrix rows follow `id_order`, frame rows stay frame rows; equality of calls with `fit_from_dict` for ascending ids; end to end AZP |
| C96 | `labels_`, `n_regions`, `metric`, `solver`, `method` after `fit` | what is stored by a fit that returns and by one that does not; **false** in part for annealing and both max-p classes |
| C97 | argument checks of the exact classes | order, exact messages, outcome for good arguments; short threshold arrays; **false** for the metric "precomputed" |
| C98 | SKATER's spanning forest | minimum total weight (all weights for forests; non-negative weights for any linking collection) and minimum bottleneck, via a counting proof of Kruskal's algorithm |
| C99 | SKATER with more clusters | refinement, part of the forest, prefix of the trace |
| C100 | attributes of `Spanning_Forest` | what `fit`, `score`, `make_cut` read and assign; **false** for `_trace` and for `make_cut` on the object's own forest |
| C101 N | annealing with `max_iterations=float("inf")` | no ties: a measure (worsening moves left, labellings with smaller objective) goes down with every run of AZP; ties: two labellings alternate for ever on a periodic tape |
| C102 | `find_cut`, `fit` without data | all scores are 0, so the first edge allowed is cut; without a quorum the forest left is a suffix of the first one |
| C103 | `AZP.fit` from a given start, plain and inside the Max-p decorator | soundness by following the program; completeness by building the tape backwards from the choices of the described procedure (`SpecAzp.lean`); extra iterations of the outer loop change nothing once it has ended |
| C104 | renumbering the areas | every notion of the specification is carried along an equivalence; C103 turns runs into the specification and back; a witness that single runs are not invariant |
| C105 | `generate_initial_sol`, `distribute_regions_among_components`, `_randomly_divide_connected_graph`; `AZP.fit` without initial labels | drawing the same link five times selects it, so every set of links can be cut; the trees of the components are glued to one forest and the numbering is shown to be determined by the clustering (`SpecStart.lean`); counting by the sets of kept links; C103 composed with it; for the other methods the draws of the starts are separated from those of the search because a run reads only a finite part of the tape (`Lemmas/StartIslands.lean`) |
| C106 | the links cut by `_randomly_divide_connected_graph` | the five tries are followed draw by draw; the size of the largest piece is specified by reachability (`largestPiece`); the first of the best links is unique, so the result is a function of the draws |
| C107 | `Spanning_Forest.fit` under another numbering of the areas or another order of equal entries | Kruskal's forest is characterised without reference to an order (`NoDetour` in `SpecTree.lean`: no detour over links between less different areas), which is unique if all dissimilarities differ; two runs are then followed side by side; the no-ties hypothesis on the cuts (`NoEqualCuts`) speaks about the sets of links and the total distance to the centres only |
| C108 | The aliases `fit` made by `copy_func`, and how a method is found in the classes of estimators | `Model/Classes.lean` keeps the names of every class body with the place of the `def` statement; function objects live on a heap, so that changing a docstring could change the original; arbitrary further subclasses |
| C109 | Attributes of `AllowMoveAZPMaxPRegions` objects (`__getattr__`) | Objects decorated any number of times around any object; the depth of calls Python allows is a parameter |
| C110 | `all_elements_equal` | `numpy.max` and `numpy.min` as folds which raise `ValueError` for an empty array |
| C111 | `grow_regions`, `find_best_area`, `assign_enclaves`, `find_best_region_idx` | soundness by following the loops; completeness by building the tape backwards from the choices of the described procedure (`SpecMaxp.lean`), the lists of the program being read as sets |
| C112 | `MaxPRegionsHeu.fit` with the default local search | C111 for the constructions; the local search by C103's method for any number of nested decorators, whose value never changes, so that there is one pass; the choice of the best result is a fold |
| C113 | renumbering the areas in the max-p heuristic | as C104, from C112 |
| C114 | local optima of the tabu searches | `SpecTabu.lean` describes steepest descent; the reactive search follows it because its one-element tabu list only holds the reverse of the last improving step; short tabu lists of the basic search never hold an improving move; islands are put together by the exact difference of the pairwise objective |
| C115 N | solver tolerance | values within `ε` of a solution (`NearValues`); decoding described exactly; for every `ε > 0` values are built for which it fails |
| C116 | results of the exact methods | soundness from C54/C57; completeness by a solution for each optimum and a solver that finds it; the tape of `set.pop` is chosen such that the tree method numbers the regions as required |
| C117–C119 | label arrays as objects in memory | second model with addresses (`Model/Memory.lean`) related step by step to the model on values (`Sim`, `FitSim`); `SpecMemory.lean` says what may happen to the caller's arrays |
| C120 | AZP with machine numbers | the operations of the strategy objects on numbers are parameters (`Model/Arith.lean`); the number of machine numbers below the stored value goes down with every pass |
| C121 N | AZP and the reduction of `ObjectiveFunctionCenter` | an objective with the same `update` and the potential as its value decides alike; witness: a pass that ends where it began with a smaller stored value, shifted by any value |
| C122 N | graph functions on weighted matrices | without stored zeros each function equals the one on the pattern, up to the tie order of the tree; witness: a row of four with a stored zero |
| C123 P, C124 N | `Spanning_Forest.fit` and `W` | value of a stored entry after the transformation is 1; witness: a neighbor of weight 0 |
| C125 N | matrices that are not symmetric | AZP keeps the labels and does not worsen the objective (`Lemmas/OneWay.lean`); witness: four areas with a one-way border, on which a region breaks |
| C126 N | helper functions of the tests | the loop has collected the regions of the areas seen so far, in order of their first areas (`Lemmas/TestUtil.lean`); witness: two lists of singletons |
| C127 N | the examples of the test suite | all 512 sets of the nine areas are tested as bit masks in the kernel: only one pair of regions cannot be improved by a move (`Lemmas/Masks.lean`, `Lemmas/Published.lean`); every run of AZP and of the exact models ends there; every steepest descent from a feasible start ends there after at most five steps and never undoes a move, so the basic tabu search and the reactive tabu search with six iterations end there as well (`Lemmas/TabuGuarded.lean`, `Lemmas/PublishedDescent.lean`); for annealing, bounds on the change of the value during a pass, one for every set of areas, are computed outside and checked in the kernel: with worsening moves below 255.9 every pass ends with the expected regions or lowers the value (`Lemmas/PublishedAnneal.lean`) |
| C128 | all results of simulated annealing | `SpecAnneal.lean` describes the procedure with all choices open (worsening moves possible iff the probability is positive); soundness by following the program with the object it carries, completeness by building the tape (`Lemmas/Anneal.lean`, `Lemmas/AnnealFit.lean`, `Lemmas/AnnealScratch.lean`, on islands `Lemmas/AnnealIslands.lean`, where starts drawn between the islands are moved to the front of another tape by `Lemmas/StartIslands.lean`); on tapes without small random numbers small probabilities can be set to 0 (`Lemmas/Twin.lean`) |
| C129 | tests of the helper functions | the elements popped are the numbers drawn (`Lemmas/TestSuite.lean`); a sequence of draws fails the test iff it is constant |
| C130 | all results of the basic tabu search | the procedure of `SpecTabuRun.lean`; each round of the model is a round of it and conversely (`Lemmas/TabuExact.lean`), islands by an order-preserving renaming of the areas (`Lemmas/TabuExactFit.lean`) |
| C131 | the result of the reactive tabu search | the procedure of `SpecReactRun.lean`; the rounds of the model are its rounds because the values fall strictly, so that nothing is visited twice (`Lemmas/ReactExact.lean`); `fit` on a connected map is one call (`Lemmas/ReactExactFit.lean`); on several islands the recorded clusterings of earlier islands have other labels, so they are never met again, but the last of them is what an island without improvement gets (`SpecReactIslands.lean`, `Lemmas/ReactIslands.lean`) |
| C132 | all results of the max-p heuristic with the basic tabu search | the procedure of `SpecTabuMay.lean`: that of C130 with a rule that can refuse moves; any strategy that decides by the rule follows it (`Rules` in `Lemmas/TabuMay.lean`), the default strategy inside Max-p decorators does (`decorated_rules`, for non-negative quantities: then no region can vanish); islands by an order-preserving renaming; put into the description of the heuristic of C112 |
| C133 | the max-p heuristic ends with tabu search and annealing as local search | `Lemmas/TabuTotal.lean`: under the rule interface of C132 no round raises, and without ties a round cannot come back to a value, so the number of rounds is bounded; with annealing from C30 and C101; `c133_endless` shows on the star with equal attributes (`Lemmas/StarTurn.lean`) that ties make the whole heuristic endless, whatever the draws |
| C134 P N | the weights of the adjacency matrix in azp.py | the four classes once more on matrices with values (`Model/SparseAzp.lean`), related to the Boolean model call by call; witnesses for the spanning tree and for stored zeros |
| C135 P N | the columns of the attribute table | a permutation or a constant column is a change of units with the factor 1 (C88); the same linear program for the exact methods; a witness that a constant column decides for `PRegionsExact` |
| C136 P N | the basic tabu search with `ObjectiveFunctionCenter` | `Lemmas/TabuGuard.lean`: if `update` raises rather than empty a region, every accepted move keeps the regions; with tabu lists of length at most 1 undoing the last move is never an improvement; a witness run raising `ValueError` |
| C137 P N | the tabu searches with rounded dissimilarities | the number of iterations bounds the reactive search; rounding makes the ties of C36 (related by C88) |
| C138 P N | the weights of the adjacency matrix in the max-p heuristic | max-p once more on matrices with values (`Model/SparseMaxp.lean`), related to the Boolean model phase by phase; witness: a stored zero between two islands |
| C139 P N | areas listed as their own neighbors | `Lemmas/Loops.lean`: contiguity, islands, candidates and moves agree, so every run of the four classes is the same; the exact methods by C116; witnesses for the max-p heuristic and (C52) the tree method |
| C140 P | units of the spatially extensive attributes | `Lemmas/Rel.lean`, `RelTabu.lean`: the two runs of C88 with a positive factor per column (`QuotaTimes`); the exact method by C116 |
| C141 P N | a lower threshold never costs regions | the exact method by C116: the old result competes with the new one; witness against the heuristic |
| C142 P N | extreme thresholds | from C43, C45, C87, C111, C133 and the comparison with the exact method; reactive tabu raises (C133) |
| C143 P N | as many regions as areas | from C22, C29, C34, C60; the reactive tabu search, the order, flow and tree methods violate it (C39, C49, C51, C53) |

## 3. Disagreements found between code and documentation

Each line is a theorem (in `Verif/Props`, namespace `Region.Props`) showing the code, as modelled,
doing something other than its documentation, its name or the property says.

### Utilities and initial solutions
* `c04_message_counts_areas` – `assert_feasible` reports the number of areas as the number of regions.
* `c08_single_region_raises` – `AZP.fit` with `n_regions=1` and no initial labels raises `TypeError` on
  every non-empty graph (`generate_initial_sol` yields a dict).
* `c17_none_is_manhattan` – `get_metric_function(None)` is Manhattan; the docstring says Euclidean.
  `c17_precomputed` – `"precomputed"` returns `None`. `c17_metric_case_sensitive`.
* `c122_stored_zero`, `c122_too_many`, `c122_generate` – an explicitly stored zero is a border for `is_connected`,
  `separate_components` and `assert_feasible` but not for `neighbors`; three regions instead of two.
* `c134_stored_zero` – with a stored zero (kept by indexing) AZP turns contiguous regions into a region that is not
  contiguous. `c134_weights_matter` – without initial labels the weights decide which spanning tree is cut.
* `c138_stored_zero` – in the max-p heuristic a stored zero is no border for `grow_regions` but one for
  `assign_enclaves` (which reads the weights object): an enclave joins a region it does not border, and `fit` raises
  `ValueError` or returns a region that is not contiguous, depending on whether indexing keeps stored zeros.
* `c125_breaks`, `c125_annealing_raises`, `c125_grow_raises`, `c125_order_incomplete` – one-way borders are
  borders for the contiguity tests but `neighbors` only sees them from one side; AZP breaks regions,
  annealing and max-p raise, the order model has no solution.
* `c126_repetition_accepted` – `compare_region_lists` of the tests accepts a list that names one region twice
  and leaves another one out (no test passes such a list).

### Objective functions
* `c20_max_not_exact` – `update` of the centre objective is wrong for `reduction=max`.
  `c121_endless` – because of this AZP can run for ever in exact arithmetic.
* `c20_labels_not_restored_on_error` – moving a region's only area raises and leaves `labels` modified.

### AZP
* `c21_minus_one_frozen`, `c24_all_minus_one_raises` – label -1 is accepted by `assert_feasible` but
  doubles as the marker "other component": such areas are never moved, or `UnboundLocalError`.
* `c26_not_local_optimum` – AZP can stop where an admissible move still improves the objective.
* `c27_not_for_decorator` – `objective_val` of the max-p decorator is never updated.
* `c101_endless` – with the default `max_iterations` and data with ties, `AZPSimulatedAnnealing.fit` can
  run for ever (step b alternates between two clusterings of equal objective).
* `c31_constructor` – `AllowMoveAZPSimulatedAnnealing` rejects its own default `sa_moves_term=inf`.

### Tabu searches
* `c36_not_terminating` – basic tabu search can run forever (value-neutral moves).
* `c67_stuck_in_local_optimum` – the documented non-improving step is never made.
* `c68_last_improvement_lost` – reactive tabu returns the labelling before the last move.
* `c69_region_lost` – the random moves of step 11 can empty a region.
* `c38_foreign_labels`, `c38_wrong_length` – state of one component is used for the next.
* `c92_sa_differs`, `c92_reactive_differs` – annealing and reactive tabu search keep their history from fit to
  fit; results change.
* `c39_attribute_error`, `c39_type_error`, `c39_value_error` – reactive tabu crashes.
* `c132_blocked` – with the basic tabu search as local search of the max-p heuristic, a best move that is refused
  because of the thresholds ends the search, even if there are permitted improving moves; the default local search
  makes them.
* `c133_endless` – with the basic tabu search as local search of the max-p heuristic, ties are enough for `fit` not to
  return: four equal areas in a star, threshold met by each outer area, every sequence of draws and every setting.
* `c133_reactive_raises` – with the reactive tabu search as local search of the max-p heuristic, `fit` raises whenever
  every area of a connected map reaches the thresholds alone: there is no move, and `best_move.area` fails.
* `c114_basic_not_optimal` – with the default parameters the basic tabu search can end right after an
  aspiration move, in a labelling that can be improved.
* `c114_sideways` – the reactive search leaves a local optimum by a value-neutral move and returns the
  labelling it has reached, although that one can be improved.

### Max-p heuristic
* `c40_negative_violates` – with negative attributes an allowed move breaks the threshold.
* `c41_self_loop_raises`, `c43_no_iterations` – self-loops raise; `max_it=0` sets no labels.
* `c44_one_pass`, `c44_misses_improvement` – the decorated AZP makes one pass only.
* `c45_sa_violates` – with simulated annealing the result can violate the threshold.
* `c45_reactive_islands` – with reactive tabu search on a map of two islands the result can have regions
  that are not contiguous.
* `c46_history_matters` – decorators pile up on a reused local search object; results change.

* `c94_maxp_default_false` – `MaxPRegionsHeu(random_state=…)` is not reproducible: the default local search
  reseeds the generator with `None`. `c94_maxp_sa_false` – likewise with annealing without `random_state`.
* `c94_in_between_false`, `c94_second_fit_false`, `c94_own_seed_discarded` – the generator is the global one:
  constructing another object changes the result of an earlier one, a second fit differs from the first,
  and a seed set by the caller is discarded by the constructors.

### Exact models
* `c49_not_representable`, `c49_single_region_infeasible`, `c49_singletons_infeasible` – the flow model
  excludes feasible clusterings. `c54_flow_not_optimal` – so its optimum is not the optimum.
* `c51_order_infeasible`, `c51_order_key_error`, `c53_tree_infeasible` – order and tree models have no
  solution for n_regions close to the number of areas. `c52_self_loop`, `c54_tree_merges` – tree
  solutions that cannot be read off.
* `c136_center_raises` – `AZPBasicTabu` with `ObjectiveFunctionCenter` raises `ValueError` on four areas in
  a row, whatever the draws: the aspiration step evaluates tabu moves of areas that are alone in their region.
* `c135_exact_constant` – a column in which all areas have the same value changes what `PRegionsExact` returns.
* `c55_reshaped`, `c55_wrong_optimum` – with several attributes the distances are those of reshaped
  columns, and the optimum found is not the optimum of the objective.
* `c71_flow_silent`, `c71_order_silent`, `c71_tree_silent`, `c72_unreachable_threshold` – infeasible
  programs are reported as a labelling.
* `c56_list_ignored` – a list of thresholds is ignored. `c58_all_alike`, `c58_single_area` – identical
  areas raise `ValueError` (logarithm of zero).
* `c115_flow_lost`, `c115_order_lost`, `c115_maxp_lost`, `c115_tree_lost`, `c115_witness` – solutions are read with
  `varValue == 1`; a solver that is off by its integrality tolerance makes areas end in region 0, or makes the array of labels too short.

* `c96_maxp_exact_metric_false` – `MaxPRegionsExact.fit` assigns `metric` before it checks the solver, so a
  rejected call leaves a half-updated object. `c97_precomputed_false` – the metric "precomputed" is accepted
  and raises `TypeError` later.

### Attributes
* `c96_sa_n_regions_false`, `c96_maxp_n_regions_false` – annealing and the max-p heuristic never assign
  `n_regions`; it stays `None`. `c96_unfitted` – annealing has no `labels_` before the first fit.
* `c96_maxp_stale_false` – with `max_it` 0 the max-p heuristic returns with the labels of the previous fit;
  `c96_maxp_raises` – after an exception `labels_` can hold an intermediate labelling.

### SKATER
* `c61_small_map` – a connected map smaller than the quorum is returned as a cluster.
* `c64_identical_neighbours`, `c64_all_alike` – neighbours with identical data are separated (a zero
  weight is no edge).
* `c65_off_by_one` – `islands='increase'` gives one cluster too many.
* `c66_affinity_fails` – with an affinity every cut raises `TypeError`.
* `c74_other_labels` – `score` works for labels 0…k-1 only.
* `c76_score_rises` – a cut can make the default score worse.

* `c100_trace_false`, `c100_raises_trace_false` – `fit(trace=False)` leaves the trace of an earlier fit, and a
  failing traced fit throws it away. `c100_make_cut_false` – `make_cut` without a forest changes the forest
  of the object but not its labels.
* `c124_changed` – `fit` transforms the caller's `W` to binary weights and leaves it so.

### Adapters
* `c12_exactly`, `c12_subset_raises`, `c12_subset_reshaped`, `c12_repeated_merged` – the documented
  subsets and repetitions of keys do not work for 2-D output.
* `c15_every_other_order`, `c15_wrong_regions` – `fit_from_networkx` pairs nodes with other nodes'
  attributes unless they were added in ascending order.
* `c77_hole_filled`, `c77_unknown_attribute` – missing node attributes go unnoticed.
* `c78_azp_extra`, `c78_azp_extra_silent` – `AZP.fit_from_dict` accepts data for other areas.
* `c79_spat_not_named` – the message shows the value in place of the argument's name.
* `c80_always_type_error` – initial labels through `fit_from_networkx` always raise `TypeError`.
* `c81_rows_lost` – `dataframe_to_dict` drops rows with duplicate labels.
* `c83_none_rejected` – the message of `w_from_gdf` offers `None`, which is rejected.

### Classes
* `c108_no_fit`, `c108_not_all` – `AZPSimulatedAnnealing` has no `fit`; all other estimators have it as an alias of
  `fit_from_scipy_sparse_matrix`. `c108_overridden` – as the alias is a copy, a subclass overriding
  `fit_from_scipy_sparse_matrix` keeps the old code under the name `fit`.
* `c109_uninitialised` – on a decorated strategy whose `__init__` has not run (as in `copy.copy` or `pickle`)
  every unknown attribute is a `RecursionError` instead of an `AttributeError`.
* `c110_empty` – `all_elements_equal` raises for an empty array.

### Arrays
* `c118_shared` – `AZPSimulatedAnnealing.labels_` is the array passed as `initial_labels` if no clustering takes place.
* `c119_changed` – a failing `ObjectiveFunctionCenter.update` leaves the labels changed.

### Tests
* `c127_reactive_seed`, `c127_reactive_wrong` – `test_azp_reactive_tabu.py` uses `max_iterations=5`; some seeds and
  some feasible starts need one more iteration, so these tests pass only because of the seed they fix.
* `c127_annealing_seed` – a random number 0.0 makes a worsening move possible however large it is (as long as
  `math.exp` does not underflow); with enough zeros simulated annealing returns other regions than the tests
  expect.  With no zero it never does (`c127_annealing`).
* `c129_failing` – `test_random_element_from` and `test_pop_randomly_from` fix no seed and fail for 1000 of the `10^15`
  sequences of draws.
