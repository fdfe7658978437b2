import Mathlib.Data.List.Sort
import Verif.Model.Azp
import Verif.Model.PRegionsExact

/-
The adapters that turn dicts, networkx graphs and data frames into matrices and arrays, and the
validation of options (region/util.py and the `fit_from_*` methods).

Simplifications: an attribute value is a number or a list of numbers; arrays with two axes are
lists of rows.  `W` objects and geographic data frames are in Model/Pysal.lean.
-/
namespace Region

/-- A Python `dict`: its items in insertion order. -/
structure Dict (κ α : Type) where
  entries : List (κ × α)
  nodup : (entries.map Prod.fst).Nodup

namespace Dict
variable {κ α : Type}

/-- Iteration over a dict: its keys in insertion order. -/
def keys (d : Dict κ α) : List κ := d.entries.map Prod.fst

/-- `len(d)`. -/
def len (d : Dict κ α) : Nat := d.entries.length

/-- The search behind `d[k]`. -/
def find [DecidableEq κ] (k : κ) : List (κ × α) → Res α
  | [] => .raise .keyError
  | (k', v) :: es => if k' = k then .ok v else find k es

/-- `d[k]`. -/
def get [DecidableEq κ] (d : Dict κ α) (k : κ) : Res α := find k d.entries

/-- `sorted(d)`. -/
def sorted [LinearOrder κ] (d : Dict κ α) : List κ := d.keys.insertionSort (· ≤ ·)

/-- `d.keys() == e.keys()`: the same set of keys. -/
def sameKeys [DecidableEq κ] {β : Type} (d : Dict κ α) (e : Dict κ β) : Bool :=
  d.keys.all (fun k => e.keys.contains k) && e.keys.all (fun k => d.keys.contains k)

end Dict

/-- A value of an attribute dict: a number or an iterable of numbers. -/
inductive Val
  | num (q : ℚ)
  | seq (l : List ℚ)
  deriving DecidableEq, Repr

/-- `np.fromiter(..., dtype=np.int32)` on one number: truncation (no overflow modelled). -/
def truncToInt (q : ℚ) : Int := q.num.tdiv q.den

section arrays
variable {κ β : Type} [LinearOrder κ]

/-- `chain.from_iterable(dct[key] for key in sorted_keys)` fed to `np.fromiter`
(util.py 67-68, 72). -/
def chainValues (d : Dict κ Val) (conv : ℚ → β) : List κ → Res (List β)
  | [] => .ok []
  | k :: ks => do
    let v ← d.get k
    match v with
    | .num _ => .raise .typeError                       -- a number is not iterable
    | .seq l => do
      let rest ← chainValues d conv ks
      .ok (l.map conv ++ rest)

/-- `(dct[key] for key in sorted_keys)` fed to `np.fromiter` (util.py 69-70, 72). -/
def plainValues (d : Dict κ Val) (conv : ℚ → β) : List κ → Res (List β)
  | [] => .ok []
  | k :: ks => do
    let v ← d.get k
    match v with
    | .seq _ => .raise (.valueError "setting an array element with a sequence.")
    | .num q => do
      let rest ← plainValues d conv ks
      .ok (conv q :: rest)

/-- `array_from_dict_values(dct, sorted_keys, flat_output=True, dtype)` (util.py 64-74). -/
def flatFromDictValues (d : Dict κ Val) (sortedKeys : Option (List κ)) (conv : ℚ → β) :
    Res (List β) :=
  let ks := sortedKeys.getD d.sorted
  match ks with
  | [] => .raise .indexError                            -- `sorted_keys[0]`
  | k :: _ => do
    let v ← d.get k
    match v with
    | .seq _ => chainValues d conv ks
    | .num _ => plainValues d conv ks

/-- The rows of a flat array reshaped to `rows` rows of width `w`. -/
def chunks (w : Nat) : Nat → List β → List (List β)
  | 0, _ => []
  | rows + 1, l => l.take w :: chunks w rows (l.drop w)

/-- `flat_arr.reshape((rows, -1))`. -/
def reshapeRows (rows : Nat) (flat : List β) : Res (List (List β)) :=
  if rows = 0 then .raise (.valueError "cannot reshape array")
  else if flat.length % rows = 0 then .ok (chunks (flat.length / rows) rows flat)
  else .raise (.valueError "cannot reshape array")

/-- `array_from_dict_values(dct, sorted_keys)` (util.py 21-75). -/
def arrayFromDictValues (d : Dict κ Val) (sortedKeys : Option (List κ)) : Res (List (List ℚ)) := do
  let flat ← flatFromDictValues d sortedKeys id
  reshapeRows d.len flat

end arrays

section sparse
variable {κ : Type} [LinearOrder κ]

/-- `name_to_int[k]` where `names` is the sorted list of names (util.py 115). -/
def nameToInt (names : List κ) (k : κ) : Res (Fin names.length) :=
  if h : names.idxOf k < names.length then .ok ⟨names.idxOf k, h⟩ else .raise .keyError

/-- The inner loop over the neighbors of `i` (util.py 118-119). -/
def fillNeighbors (names : List κ) (i : κ) : List κ → Adj names.length → Res (Adj names.length)
  | [], adj => .ok adj
  | j :: js, adj => do
    let a ← nameToInt names i
    let b ← nameToInt names j
    fillNeighbors names i js fun x y => if x = a ∧ y = b then true else adj x y

/-- The loop over the areas (util.py 117-119). -/
def fillMatrix (names : List κ) : List (κ × List κ) → Adj names.length → Res (Adj names.length)
  | [], adj => .ok adj
  | (i, js) :: es, adj => do
    let adj ← fillNeighbors names i js adj
    fillMatrix names es adj

/-- `scipy_sparse_matrix_from_dict(neighbors)` (util.py 80-120).  The number of areas is the
length of the sorted list of names. -/
def sparseFromDict (neighbors : Dict κ (List κ)) : Res (Adj neighbors.sorted.length) :=
  fillMatrix neighbors.sorted neighbors.entries fun _ _ => false

end sparse

section networkx
variable {κ : Type}

/-- A networkx graph: nodes in insertion order, edges, and the attributes of each node. -/
structure Graph (κ : Type) where
  nodes : List κ
  nodup : nodes.Nodup
  edge : κ → κ → Bool
  attrs : κ → String → Option ℚ

/-- `nx.to_scipy_sparse_matrix(graph)`: rows in the order of `graph.nodes()`; a graph without
nodes raises `NetworkXError`.  Edge weights are not modelled. -/
def Graph.sparse (g : Graph κ) : Res (Adj g.nodes.length) :=
  if g.nodes = [] then .raise (.exception "Graph has no nodes or edges")
  else .ok fun i j => g.edge (g.nodes.get i) (g.nodes.get j)

/-- `nx.get_node_attributes(graph, name)`: the nodes having the attribute. -/
def Graph.nodeAttributes (g : Graph κ) (name : String) : List (κ × ℚ) :=
  g.nodes.filterMap fun k => (g.attrs k name).map fun v => (k, v)

/-- The `attr` argument of `fit_from_networkx`. -/
inductive GraphAttr (κ : Type)
  | name (a : String)
  | names (as : List String)
  | dict (d : Dict κ Val)
  | other                                               -- neither iterable nor a mapping

/-- One attribute appended to the lists of the nodes that have it (util.py 198-200). -/
def appendAttr [DecidableEq κ] (g : Graph κ) (data : κ → List ℚ) (a : String) : κ → List ℚ :=
  (g.nodeAttributes a).foldl
    (fun data e k => if k = e.1 then data k ++ [e.2] else data k) data

/-- The dict built from node attributes (util.py 197-204). -/
def dictOfNames [DecidableEq κ] (g : Graph κ) (as : List String) : Dict κ Val where
  entries := g.nodes.map fun k => (k, .seq (as.foldl (appendAttr g) (fun _ => []) k))
  nodup := by simpa [List.map_map, Function.comp_def] using g.nodup

/-- `dict_from_graph_attr(graph, attr)` (util.py 150-204); iterating over `other` raises. -/
def dictFromGraphAttr [DecidableEq κ] (g : Graph κ) : GraphAttr κ → Res (Dict κ Val)
  | .dict d => .ok d
  | .name a => .ok (dictOfNames g [a])
  | .names as => .ok (dictOfNames g as)
  | .other => .raise .typeError

/-- `array_from_graph(graph, attr)` (util.py 207-243). -/
def arrayFromGraph [LinearOrder κ] (g : Graph κ) (attr : GraphAttr κ) : Res (List (List ℚ)) := do
  let d ← dictFromGraphAttr g attr
  arrayFromDictValues d none

/-- `array_from_graph_or_dict(graph, attr)` (util.py 246-255).  A dict is iterable, so it takes
the first branch too. -/
def arrayFromGraphOrDict [LinearOrder κ] (g : Graph κ) : GraphAttr κ → Res (List (List ℚ))
  | .other => .raise (.valueError
      "The `attr` argument must be a string, a list of strings or a dictionary.")
  | attr => arrayFromGraph g attr

end networkx

section frames
variable {κ : Type}

/-- A data frame: its index and its columns, each with one value per row. -/
structure Frame (κ : Type) where
  height : Nat
  index : Fin height → κ
  cols : Dict String (Fin height → ℚ)

/-- The `attr` argument of `array_from_df_col`. -/
inductive ColArg
  | name (a : String)
  | names (as : List String)
  | mixed                                               -- a sequence holding a non-string
  | other                                               -- not a sequence

/-- The columns `df[attr]` for a list of names; an unknown name raises `KeyError`. -/
def Frame.select (df : Frame κ) : List String → Res (List (Fin df.height → ℚ))
  | [] => .ok []
  | a :: as => do
    let c ← df.cols.get a
    let cs ← df.select as
    .ok (c :: cs)

/-- The message of `array_from_df_col` (util.py 320-323). -/
def colArgMsg : String :=
  "The attr argument has to be of one of the following types: str or a sequence of strings."

/-- `np.array(df[attr])` for a list of columns. -/
def rowsOf {h : Nat} (cs : List (Fin h → ℚ)) : List (List ℚ) :=
  (List.finRange h).map fun i => cs.map fun c => c i

/-- `array_from_df_col(df, attr)` (util.py 287-331). -/
def arrayFromDfCol (df : Frame κ) : ColArg → Res (List (List ℚ))
  | .name a => do
    let cs ← df.select [a]
    .ok (rowsOf cs)
  | .names as => do
    let cs ← df.select as
    .ok (rowsOf cs)
  | .mixed => .raise (.valueError colArgMsg)
  | .other => .raise (.valueError colArgMsg)

/-- `d[k] = v`: an existing key keeps its place. -/
def insertItem [DecidableEq κ] {α : Type} (k : κ) (v : α) : List (κ × α) → List (κ × α)
  | [] => [(k, v)]
  | e :: es => if e.1 = k then (k, v) :: es else e :: insertItem k v es

/-- `dict(pairs)`. -/
def dictItems [DecidableEq κ] {α : Type} (pairs : List (κ × α)) : List (κ × α) :=
  pairs.foldl (fun es p => insertItem p.1 p.2 es) []

/-- `dataframe_to_dict(df, cols)` (util.py 364-400) as a list of items: a string selects one
column (scalar values), a list of strings gives arrays. -/
def dataframeToDict [DecidableEq κ] (df : Frame κ) : ColArg → Res (List (κ × Val))
  | .name a => do
    let c ← df.cols.get a
    .ok (dictItems ((List.finRange df.height).map fun i => (df.index i, .num (c i))))
  | .names as => do
    let cs ← df.select as
    .ok (dictItems ((List.finRange df.height).map fun i =>
      (df.index i, .seq (cs.map fun c => c i))))
  | .mixed => .raise .keyError
  | .other => .raise .keyError

end frames

/-! ### Options -/

/-- An argument that should be a string. -/
inductive PyStr
  | str (s : String)
  | other
  deriving DecidableEq

/-- The classes `get_solver_instance` can choose. -/
inductive SolverClass
  | cbc | cplex | glpk | gurobi
  deriving DecidableEq, Repr

/-- The names `check_solver` accepts (util.py 888-893). -/
def solverNames : List String := ["cbc", "cplex", "glpk", "gurobi"]

/-- The message of `check_solver` (util.py 894-897). -/
def solverMsg : String :=
  "The solver argument must be one of the following strings: \"cbc\", \"cplex\", \"glpk\", or \"gurobi\"."

/-- `check_solver(solver)` (util.py 887-897). -/
def checkSolver : PyStr → Res Unit
  | .other => .raise (.valueError solverMsg)
  | .str s => if solverNames.contains s.toLower then .ok () else .raise (.valueError solverMsg)

/-- The table of `get_solver_instance` (util.py 901-906). -/
def solverTable : List (String × SolverClass) :=
  [("cbc", .cbc), ("cplex", .cplex), ("glpk", .glpk), ("gurobi", .gurobi)]

/-- `get_solver_instance(solver_string)` (util.py 900-908). -/
def getSolverInstance (s : String) : Res SolverClass := Dict.find s.toLower solverTable

/-- `PRegionsExact._check_method(method)` (p_regions/exact.py 290-295). -/
def checkMethod : PyStr → Res Unit
  | .other => .raise (.valueError
      "The method argument must be one of the following strings: 'flow', 'order', or 'tree'.")
  | .str s => if ["flow", "order", "tree"].contains s.toLower then .ok () else .raise (.valueError
      "The method argument must be one of the following strings: 'flow', 'order', or 'tree'.")

/-- The dispatch table of `PRegionsExact.fit_from_scipy_sparse_matrix`
(p_regions/exact.py 100-104). -/
def getMethod (s : String) : Res Method :=
  Dict.find s.toLower [("flow", .flow), ("order", .order), ("tree", .tree)]

/-- The pairwise distance functions of scikit-learn. -/
inductive SkMetric
  | manhattan | cosine | euclidean | haversine
  deriving DecidableEq, Repr

/-- What `get_metric_function` can return: a function of scikit-learn, the caller's own function,
or Python's `None`. -/
inductive MetricFn (φ : Type)
  | sk (f : SkMetric)
  | own (f : φ)
  | pyNone
  deriving DecidableEq

/-- The `metric` argument. -/
inductive MetricArg (φ : Type)
  | none
  | str (s : String)
  | func (f : φ)
  | other

/-- `sklearn.metrics.pairwise.distance_metrics()`. -/
def distanceMetrics {φ : Type} : List (String × MetricFn φ) :=
  [("cityblock", .sk .manhattan), ("cosine", .sk .cosine), ("euclidean", .sk .euclidean),
   ("haversine", .sk .haversine), ("l2", .sk .euclidean), ("l1", .sk .manhattan),
   ("manhattan", .sk .manhattan), ("precomputed", .pyNone)]

/-- Lookup of a metric by name (util.py 482-497); the message is shortened. -/
def namedMetric {φ : Type} (s : String) : Res (MetricFn φ) :=
  match Dict.find s distanceMetrics with
  | .ok f => .ok f
  | _ => .raise (.valueError (s ++ " is not a known metric."))

/-- `get_metric_function(metric)` (util.py 446-505). -/
def getMetricFunction {φ : Type} : MetricArg φ → Res (MetricFn φ)
  | .none => namedMetric "manhattan"
  | .str s => namedMetric s
  | .func f => .ok (.own f)
  | .other => .raise (.valueError "Please pass a string or a function instead.")

/-- The two kinds of contiguity. -/
inductive Contiguity
  | rook | queen
  deriving DecidableEq

/-- The choice made by `w_from_gdf(gdf, contiguity)` (util.py 334-361); the matrices themselves
come from libpysal. -/
def wFromGdf : PyStr → Res Contiguity
  | .other => .raise (.valueError
      "The contiguity argument must be either None or one of the following strings: \"rook\" or\"queen\".")
  | .str s =>
    if ["rook", "queen"].contains s.toLower then
      .ok (if s.toLower = "rook" then .rook else .queen)
    else .raise (.valueError
      "The contiguity argument must be either None or one of the following strings: \"rook\" or\"queen\".")

/-! ### The `fit_from_*` methods -/

/-- The initial labels handed to `fit_from_scipy_sparse_matrix`: a one-dimensional array, or an
array with two axes. -/
inductive LabelArg
  | flat (l : List Int)
  | rows (l : List (List ℚ))
  deriving DecidableEq, Repr

/-- The arguments an adapter passes on to `fit_from_scipy_sparse_matrix`. -/
structure SparseCall where
  n : Nat
  adj : Adj n
  attr : List (List ℚ)
  spat : Option (List (List ℚ))
  labels : Option LabelArg

section fits
variable {κ : Type} [LinearOrder κ]

/-- `AZP.fit_from_dict` (azp.py 240-282) and `AZPSimulatedAnnealing.fit_from_dict`
(azp.py 503-542). -/
def azpFromDict (neighbors : Dict κ (List κ)) (attr : Dict κ Val) (labels : Option (Dict κ Val)) :
    Res SparseCall := do
  let areas := neighbors.sorted
  let adj ← sparseFromDict neighbors
  let attrArr ← arrayFromDictValues attr (some areas)
  match labels with
  | none => .ok ⟨_, adj, attrArr, none, none⟩
  | some l => do
    let arr ← flatFromDictValues l (some areas) truncToInt
    .ok ⟨_, adj, attrArr, none, some (.flat arr)⟩

/-- The message of the dict checks. -/
def sameKeysMsg (name : String) : String :=
  "The " ++ name ++ " argument has to be of type dict with the same keys as neighbors_dict."

/-- `PRegionsExact.fit_from_dict` (p_regions/exact.py 117-165); `none` is an argument that is not
a dict. -/
def exactFromDict (neighbors : Option (Dict κ (List κ))) (attr : Option (Dict κ Val)) :
    Res SparseCall :=
  match neighbors with
  | none => .raise (.valueError "The neighbors_dict argument must be dict.")
  | some neighbors =>
    match attr with
    | none => .raise (.valueError (sameKeysMsg "attr"))
    | some attr =>
      if attr.sameKeys neighbors then do
        let adj ← sparseFromDict neighbors
        let attrArr ← arrayFromDictValues attr none
        .ok ⟨_, adj, attrArr, none, none⟩
      else .raise (.valueError (sameKeysMsg "attr"))

/-- `MaxPRegionsHeu.fit_from_dict` (heuristics.py 129-191) and `MaxPRegionsExact.fit_from_dict`
(max_p_regions/exact.py 171-231).  `shown` is how Python prints the spatially extensive argument:
the message is formatted with the argument itself, not with its name. -/
def maxpFromDict (shown : String) (neighbors : Option (Dict κ (List κ)))
    (attr : Option (Dict κ Val)) (spat : Option (Dict κ Val)) : Res SparseCall :=
  match neighbors with
  | none => .raise (.valueError "The neighbors_dict argument must be dict.")
  | some neighbors =>
    match attr with
    | none => .raise (.valueError (sameKeysMsg "attr"))
    | some attr =>
      if attr.sameKeys neighbors then
        match spat with
        | none => .raise (.valueError (sameKeysMsg shown))
        | some spat =>
          if spat.sameKeys neighbors then do
            let adj ← sparseFromDict neighbors
            let attrArr ← arrayFromDictValues attr none
            let spatArr ← arrayFromDictValues spat none
            .ok ⟨_, adj, attrArr, some spatArr, none⟩
          else .raise (.valueError (sameKeysMsg shown))
      else .raise (.valueError (sameKeysMsg "attr"))

/-- `AZP.fit_from_networkx` (azp.py 150-198), `AZPSimulatedAnnealing.fit_from_networkx`
(azp.py 544-583) and, without labels, `PRegionsExact.fit_from_networkx`
(p_regions/exact.py 211-254). -/
def azpFromNetworkx (g : Graph κ) (attr : GraphAttr κ) (labels : Option (GraphAttr κ)) :
    Res SparseCall := do
  let adj ← g.sparse
  let attrArr ← arrayFromGraphOrDict g attr
  match labels with
  | none => .ok ⟨_, adj, attrArr, none, none⟩
  | some l => do
    let arr ← arrayFromGraphOrDict g l
    .ok ⟨_, adj, attrArr, none, some (.rows arr)⟩

/-- `MaxPRegionsHeu.fit_from_networkx` (heuristics.py 243-302) and
`MaxPRegionsExact.fit_from_networkx` (max_p_regions/exact.py 283-342). -/
def maxpFromNetworkx (g : Graph κ) (attr spat : GraphAttr κ) : Res SparseCall := do
  let adj ← g.sparse
  let attrArr ← arrayFromGraphOrDict g attr
  let spatArr ← arrayFromGraphOrDict g spat
  .ok ⟨_, adj, attrArr, some spatArr, none⟩

end fits

/-- The rows `attr[i]` that `fit_from_scipy_sparse_matrix` reads for `n` areas; an array with too
few rows raises `IndexError` (azp.py 101). -/
def rowsFor (n : Nat) (attr : List (List ℚ)) : Res (Fin n → List ℚ) :=
  if h : n ≤ attr.length then .ok fun i => attr.get ⟨i, by omega⟩ else .raise .indexError

/-- The label array as the algorithms use it.  `set(solution)` on an array with two axes raises
`TypeError` (util.py 756, its rows are arrays); a one-dimensional array of another length is
not modelled beyond "raises". -/
def labelsFor (n : Nat) : Option LabelArg → Res (Option (Labels n))
  | none => .ok none
  | some (.rows _) => .raise .typeError
  | some (.flat l) =>
    if h : l.length = n then .ok (some fun i => l.get ⟨i, by omega⟩) else .raise .indexError

/-- The outcome of `AZP.fit_from_scipy_sparse_matrix` on the arguments an adapter passed. -/
def SparseCall.azp (c : SparseCall) (o : MstOrder) (expf : ℚ → ℚ) (obj : Objective (List ℚ))
    (fuel : Nat) (nRegions : Int) (rng : Rng) : Res (List Int) := do
  let labels ← labelsFor c.n c.labels
  let rows ← rowsFor c.n c.attr
  let (lab, _, _) ← azpFit (q := 1) o expf obj fuel c.adj rows nRegions labels (.azp 0) rng
  .ok (arrayList lab)

end Region
