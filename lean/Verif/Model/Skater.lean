import Verif.Model.Util
import Verif.Model.Objective
import Verif.Model.PRegionsExact
/-
Model of `/repo/region/skater/skater.py` (SKATER: pruning a minimum spanning forest).

Printing, timing and progress bars are left out; a warning is not an exception.  Scores are exact
rational numbers, and an infinite score is `none`.
-/
namespace Region.Skater

/-- An edge of the forest: `in_node`, `out_node`. -/
abbrev Edge (n : Nat) := Fin n × Fin n

/-- What `self.metric` is after `__init__` (skater.py 32-38): the given dissimilarity, which like
the functions of scikit-learn can be called with one or with two arrays of rows, or
`lambda x: -np.log(affinity(x))`, which takes one positional argument `x` only.  (`negLog` stands for
`-np.log`.) -/
inductive SkMetric
  | dissimilarity (d : Metric)
  | affinity (a : Metric) (negLog : ℚ → ℚ)

/-- A `Spanning_Forest` object (skater.py 12-40).  `reduction` is applied to all entries of an
array; `center` is called with `axis=0`. -/
structure SpanningForest where
  metric : SkMetric
  reduction : List ℚ → ℚ
  center : (m : Nat) → List (Row m) → Row m

/-- `Spanning_Forest()`: the default arguments of `__init__` (skater.py 13-16). -/
def SpanningForest.default : SpanningForest where
  metric := .dissimilarity fun _ => manhattan
  reduction := List.sum
  center := fun _ => meanRow

/-- `self.metric(data)` (skater.py 74): entry `i, j`. -/
def SkMetric.kernel (M : SkMetric) {n m : Nat} (data : Fin n → Row m) (i j : Fin n) : ℚ :=
  match M with
  | .dissimilarity d => d m (data i) (data j)
  | .affinity a negLog => negLog (a m (data i) (data j))

/-- `self.metric(X=rows, Y=y.reshape(1, -1))` (skater.py 175-177): a column of distances.  The lambda
of skater.py 35 has no parameters `X` and `Y`.  The functions of scikit-learn reject an array without
rows. -/
def SkMetric.cross (M : SkMetric) {m : Nat} (rows : List (Row m)) (y : Row m) : Res (List ℚ) :=
  match M with
  | .dissimilarity d =>
    if rows = [] then .raise (.valueError "Found array with 0 sample(s)")
    else .ok (rows.map fun x => d m x y)
  | .affinity _ _ => .raise .typeError

/-- `size < quorum`; the quorum `-np.inf` is `none`. -/
def below (quorum : Option ℚ) (size : Nat) : Bool :=
  match quorum with
  | none => false
  | some q => decide ((size : ℚ) < q)

/-- The list comprehension of skater.py 175-179 for the labels `l` in a list. -/
def partScores (S : SpanningForest) {n m : Nat} (data : Fin n → Row m) (labels : Fin n → Int) :
    List Nat → Res (List ℚ)
  | [] => .ok []
  | l :: ls => do
    let rows := (whereEq labels (l : Int)).map data
    let col ← S.metric.cross rows (S.center m rows)
    let rest ← partScores S data labels ls
    .ok (S.reduction col :: rest)

/-- `score` (skater.py 147-180) with labels as many as rows of data (otherwise the assertion of
skater.py 169 fails).  `none` stands for `np.inf`. -/
def score (S : SpanningForest) {n m : Nat} (data : Fin n → Row m) (labels : Fin n → Int)
    (quorum : Option ℚ) : Res (Option ℚ) :=
  let sizes := (uniqueCounts (arrayList labels)).map Prod.snd
  if sizes.any (below quorum) then .ok none
  else do
    let parts ← partScores S data labels (List.range sizes.length)
    .ok (some (S.reduction parts))

/-- A `deletion` (skater.py 9): an edge with its finite score; `none` is
`deletion(np.nan, np.nan, np.inf)`. -/
abbrev Deletion (n : Nat) := Option (Edge n × ℚ)

/-- `score < best_deletion.score` (skater.py 242). -/
def better {n : Nat} (s : Option ℚ) (best : Deletion n) : Bool :=
  match s, best with
  | none, _ => false
  | some _, none => true
  | some s, some (_, b) => decide (s < b)

/-- The labels `cg.connected_components(MSF, directed=False)[1]`. -/
def treeLabels {n : Nat} (msf : List (Edge n)) (i : Fin n) : Int := compLabels (adjOf msf) i

/-- The test of skater.py 222-224: the edge is passed over. -/
def skips {n : Nat} (zero : Option ((Fin n → Int) × Int)) (e : Edge n) : Bool :=
  match zero with
  | none => false
  | some (labels, target) => decide (labels e.1 ≠ target)

/-- The loop of `find_cut` (skater.py 221-243) over the edges still to be tried.  `zero` is
`(labels, target_label)`, if both are given.  `local_MSF[in_node, out_node] = 0` followed by
`eliminate_zeros` removes the entry. -/
def findCutLoop (S : SpanningForest) {n m : Nat} (msf : List (Edge n)) (data : Fin n → Row m)
    (quorum : Option ℚ) (zero : Option ((Fin n → Int) × Int)) :
    List (Edge n) → Deletion n → Res (Deletion n)
  | [], best => .ok best
  | e :: es, best =>
    if skips zero e then
      findCutLoop S msf data quorum zero es best
    else if nComponents (adjOf (msf.erase e)) ≤ nComponents (adjOf msf) then
      .raise (.exception "Malformed MSF!")
    else do
      let s ← score S data (treeLabels (msf.erase e)) quorum
      match s with
      | some v =>
        if better (some v) best then findCutLoop S msf data quorum zero es (some (e, v))
        else findCutLoop S msf data quorum zero es best
      | none => findCutLoop S msf data quorum zero es best

/-- `find_cut` (skater.py 182-246) with `make=False`, `data` given (see `findCutNone`).  The matrix `MSF` is the list of
its stored entries, row by row; `MSF.nonzero()` lists them in this order. -/
def findCut (S : SpanningForest) {n m : Nat} (msf : List (Edge n)) (data : Fin n → Row m)
    (quorum : Option ℚ) (labels : Option (Fin n → Int)) (target : Option Int) :
    Res (Deletion n) :=
  match labels, target with
  | some ls, some t => findCutLoop S msf data quorum (some (ls, t)) msf none
  | none, none => findCutLoop S msf data quorum none msf none
  | _, _ => .raise (.valueError "Both labels and target_label must be supplied!")

/-- `find_cut` with `data=None` (skater.py 203-204): `np.ones(MSF.shape)`, a row of `n` ones for every area.
(The documentation speaks of a single column.) -/
def findCutNone (S : SpanningForest) {n : Nat} (msf : List (Edge n)) (quorum : Option ℚ)
    (labels : Option (Fin n → Int)) (target : Option Int) : Res (Deletion n) :=
  findCut S msf (m := n) (fun _ _ => 1) quorum labels target

/-- `make_cut` (skater.py 248-263): the forest without the edge (the number of components and the
labels are computed from it by the callers). -/
def makeCut {n : Nat} (d : Deletion n) (msf : List (Edge n)) : Res (List (Edge n)) :=
  match d with
  | some (e, _) => .ok (msf.erase e)
  | none => .raise .optimizeWarning

/-- `find_cut(..., make=True)` (skater.py 244-245). -/
def findAndMakeCut (S : SpanningForest) {n m : Nat} (msf : List (Edge n)) (data : Fin n → Row m)
    (quorum : Option ℚ) (labels : Option (Fin n → Int)) (target : Option Int) :
    Res (List (Edge n)) := do
  let best ← findCut S msf data quorum labels target
  makeCut best msf

/-- The attributes `fit` leaves on the object: `current_labels_`, `minimum_spanning_forest_` and
`_trace`. -/
structure Outcome (n : Nat) where
  labels : Fin n → Int
  forest : List (Edge n)
  trace : List ((Fin n → Int) × Deletion n)

/-- `current_n_subtrees < n_clusters`; the number `np.inf` is `none`. -/
def fewer (k : Nat) (target : Option Int) : Bool :=
  match target with
  | none => true
  | some t => decide ((k : Int) < t)

/-- The loop of `fit` (skater.py 120-145); `tr` is the trace so far. -/
def pruneLoop (S : SpanningForest) {n m : Nat} (data : Fin n → Row m) (quorum : Option ℚ)
    (target : Option Int) (trace : Bool) :
    Nat → List (Edge n) → List ((Fin n → Int) × Deletion n) → Res (Outcome n)
  | 0, _, _ => .timeout
  | fuel + 1, msf, tr =>
    if fewer (nComponents (adjOf msf)) target then do
      let best ← findCut S msf data quorum none none
      match best with
      | some (e, s) =>
        let msf' ← makeCut (some (e, s)) msf
        pruneLoop S data quorum target trace fuel msf'
          (if trace then tr ++ [(treeLabels msf', some (e, s))] else tr)
      | none => .ok ⟨treeLabels msf, msf, tr⟩
    else .ok ⟨treeLabels msf, msf, tr⟩

/-- The order in which `cg.minimum_spanning_tree` visits the entries of a matrix: by weight, equal
weights in an unspecified way. -/
structure WeightOrder where
  order : {n : Nat} → (Fin n → Fin n → ℚ) → List (Edge n)
  perm : ∀ {n : Nat} (w : Fin n → Fin n → ℚ),
    (order w).Perm (edgesOf fun i j => decide (w i j ≠ 0))
  sorted : ∀ {n : Nat} (w : Fin n → Fin n → ℚ),
    (order w).Pairwise fun e f => w e.1 e.2 ≤ w f.1 f.2

/-- `cg.minimum_spanning_tree(dissim)` (skater.py 89): the entries kept by Kruskal's algorithm, row
by row.  Entries equal to zero are missing edges for scipy, too (skater.py 82 removes them
beforehand). -/
def spanningForest (o : WeightOrder) {n : Nat} (w : Fin n → Fin n → ℚ) : List (Edge n) :=
  edgesOf (adjOf (kruskal (o.order w)))

/-- `W.multiply(attribute_kernel)` (skater.py 81) for the binary matrix of `W`. -/
def dissim {n : Nat} (W : Adj n) (kernel : Fin n → Fin n → ℚ) (i j : Fin n) : ℚ :=
  if W i j then kernel i j else 0

/-- `n_clusters += current_n_subtrees` (skater.py 111). -/
def plus (target : Option Int) (k : Nat) : Option Int := target.map (· + k)

/-- `fit` from skater.py 81 on, with the kernel and the data in place. -/
def fitKernel (o : WeightOrder) (S : SpanningForest) {n m : Nat} (fuel : Nat)
    (nClusters : Option Int) (W : Adj n) (kernel : Fin n → Fin n → ℚ) (data : Fin n → Row m)
    (quorum : Option ℚ) (trace : Bool) (islands : String) : Res (Outcome n) :=
  let msf := spanningForest o (dissim W kernel)
  let k := nComponents (adjOf msf)
  let tr := if trace then [(treeLabels msf, none)] else []
  if k > 1 then
    let target := if islands.toLower == "ignore" then nClusters else plus nClusters k
    if ((uniqueCounts (arrayList (treeLabels msf))).map Prod.snd).any (below quorum) then
      .raise (.valueError "Islands must be larger than the quorum.")
    else pruneLoop S data quorum target trace fuel msf tr
  else pruneLoop S data quorum nClusters trace fuel msf tr

/-- `fit` (skater.py 47-145).  Without data the kernel and the (single) attribute are all ones. -/
def fit (o : WeightOrder) (S : SpanningForest) {n : Nat} (fuel : Nat) (nClusters : Option Int)
    (W : Adj n) (data : Option (Σ m : Nat, Fin n → Row m)) (quorum : Option ℚ) (trace : Bool)
    (islands : String) : Res (Outcome n) :=
  match data with
  | none => fitKernel o S (m := 1) fuel nClusters W (fun _ _ => 1) (fun _ _ => 1) quorum trace islands
  | some ⟨_, data⟩ =>
    fitKernel o S fuel nClusters W (S.metric.kernel data) data quorum trace islands

end Region.Skater
