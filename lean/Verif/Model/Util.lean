import Verif.Model.Csgraph
/-
Model of `/repo/region/util.py` (graph and label helpers; the dict/graph/dataframe adapters are
in `Model/Adapters.lean`).
-/
namespace Region

/-- A one-dimensional array of integer region labels, one per area. -/
abbrev Labels (n : Nat) := Fin n → Int

/-- Insert into a strictly increasing list. -/
def insertUniq {α : Type} [LT α] [DecidableLT α] [DecidableEq α] (x : α) : List α → List α
  | [] => [x]
  | y :: ys => if x < y then x :: y :: ys else if x = y then y :: ys else y :: insertUniq x ys

/-- `np.unique(arr)` and also the elements of `set(arr)` in the order in which the model
iterates over them (increasing). -/
def uniqueSorted {α : Type} [LT α] [DecidableLT α] [DecidableEq α] (l : List α) : List α :=
  l.foldr insertUniq []

/-- The array as a list. -/
def arrayList {n : Nat} {α : Type} (a : Fin n → α) : List α := (List.finRange n).map a

/-- `random_element_from` (util.py 851-853). -/
def randomElementFrom {α : Type} (lst : List α) (r : Rng) : Res (α × Rng) := do
  let (pos, r) ← randrange lst.length r
  match lst[pos]? with
  | some x => .ok (x, r)
  | none => .raise .indexError

/-- `pop_randomly_from` (util.py 856-858): the element and the list without it. -/
def popRandomlyFrom {α : Type} (lst : List α) (r : Rng) : Res (α × List α × Rng) := do
  let (pos, r) ← randrange lst.length r
  match lst[pos]? with
  | some x => .ok (x, lst.eraseIdx pos, r)
  | none => .raise .indexError

/-- `np.unique(arr, return_counts=True)` (used in util.py 700 and 884): the distinct values
with their numbers of occurrences (the order of the values does not matter to the callers). -/
def uniqueCounts {α : Type} [DecidableEq α] (arr : List α) : List (α × Nat) :=
  arr.eraseDups.map fun x => (x, arr.count x)

/-- `count` (util.py 861-888). -/
def count {α : Type} [DecidableEq α] (arr : List α) (el : α) : Nat :=
  match (uniqueCounts arr).filter (fun p => decide (p.1 = el)) with
  | [] => 0
  | p :: _ => p.2

/-- `make_move` (util.py 515-537). -/
def makeMove {n : Nat} (area : Fin n) (newLabel : Int) (labels : Labels n) : Labels n :=
  fun v => if v = area then newLabel else labels v

/-- The loop of `assert_feasible` (util.py 762-769) over the labels still to be checked. -/
def assertLoop {n : Nat} (solution : Labels n) (adj : Adj n) : List Int → Res Unit
  | [] => .ok ()
  | r :: rs =>
    if isConnected (subAdj adj (whereEq solution r)) then assertLoop solution adj rs
    else .raise (.valueError s!"Region {r} is not spatially contiguous.")

/-- `assert_feasible` (util.py 736-769).  Note that the message of the first error prints
`len(solution)`, the number of areas. -/
def assertFeasible {n : Nat} (solution : Labels n) (adj : Adj n) (nRegions : Option Int) :
    Res Unit :=
  let regions := uniqueSorted (arrayList solution)
  match nRegions with
  | some p =>
    if (regions.length : Int) ≠ p then
      .raise (.valueError s!"The number of regions is {n} but should be {p}")
    else assertLoop solution adj regions
  | none => assertLoop solution adj regions

/-- `boolean_assert_feasible` (util.py 772-790). -/
def booleanAssertFeasible {n : Nat} (solution : Labels n) (adj : Adj n) (nRegions : Option Int) :
    Res Bool :=
  let regions := uniqueSorted (arrayList solution)
  let resp := regions.map fun r => isConnected (subAdj adj (whereEq solution r))
  match nRegions with
  | some p =>
    if (regions.length : Int) ≠ p then
      .raise (.valueError s!"The number of regions is {n} but should be {p}")
    else .ok (resp.all id)
  | none => .ok (resp.all id)

/-- `separate_components` (util.py 797-848): the yielded arrays, in increasing order of the
component label. -/
def separateComponents {n : Nat} (adj : Adj n) (labels : Labels n) : List (Labels n) :=
  (List.range (nComponents adj)).map fun comp =>
    fun i => if compLabels adj i = comp then labels i else -1

/-- A Python dict with integer keys as far as the code looks at it: the keys in insertion
order and the value under each key. -/
structure IntDict where
  keys : List Nat
  get : Nat → Option Int

/-- `result_dict[k] += 1` (util.py 582). -/
def IntDict.incr (d : IntDict) (k : Nat) : Res IntDict :=
  match d.get k with
  | none => .raise .keyError
  | some v => .ok { d with get := fun x => if x = k then some (v + 1) else d.get x }

/-- `result_dict[k] = 1` for a new key (util.py 575). -/
def IntDict.setOne (d : IntDict) (k : Nat) : IntDict :=
  { keys := if d.keys.contains k then d.keys else d.keys ++ [k],
    get := fun x => if x = k then some 1 else d.get x }

/-- The `for comp in components` loop (util.py 573-576): removes one occurrence of every
component label from the list and gives the component one region. -/
def distributeFirst : List Nat → List Nat → IntDict → List Nat × IntDict
  | [], lst, d => (lst, d)
  | comp :: comps, lst, d => distributeFirst comps (lst.erase comp) (d.setOne comp)

/-- The `while n_regions_to_distribute > 0` loop (util.py 579-583); the first argument is the
number of regions still to be distributed. -/
def distributeRest : Nat → List Nat → IntDict → Rng → Res (IntDict × Rng)
  | 0, _, d, r => .ok (d, r)
  | m + 1, lst, d, r => do
    let (picked, lst', r) ← popRandomlyFrom lst r
    let d ← d.incr picked
    distributeRest m lst' d r

/-- `distribute_regions_among_components` (util.py 540-584).  `set(component_labels)` is
iterated in increasing order (CPython's order for small non-negative integers). -/
def distributeRegions (componentLabels : List Nat) (nRegions : Int) (r : Rng) :
    Res (IntDict × Rng) :=
  let components := uniqueSorted componentLabels
  if components.length = 1 then
    .ok ({ keys := [0], get := fun x => if x = 0 then some nRegions else none }, r)
  else
    let (lst, d) := distributeFirst components componentLabels { keys := [], get := fun _ => none }
    distributeRest (nRegions - components.length).toNat lst d r

/-- The pattern of a matrix given by its list of entries. -/
def adjOf {n : Nat} (es : List (Fin n × Fin n)) : Adj n := fun i j => es.contains (i, j)

/-- One Kruskal step: keep the edge if it joins two different classes. -/
def kruskalStep {n : Nat} (st : (Fin n → Fin n) × List (Fin n × Fin n)) (e : Fin n × Fin n) :
    (Fin n → Fin n) × List (Fin n × Fin n) :=
  if st.1 e.1 = st.1 e.2 then st else (mergeClass st.1 e, st.2 ++ [e])

/-- Kruskal's algorithm over the entries in the given order: the entries kept.  This is what
`csg.minimum_spanning_tree` computes when the entries are ordered by weight. -/
def kruskal {n : Nat} (es : List (Fin n × Fin n)) : List (Fin n × Fin n) :=
  (es.foldl kruskalStep (id, [])).2

/-- `csg.minimum_spanning_tree(adj)`, depending only on the order in which scipy visits the
entries (by weight, ties in an unspecified way): an arbitrary permutation of the entries. -/
structure MstOrder where
  order : {n : Nat} → Adj n → List (Fin n × Fin n)
  perm : ∀ {n : Nat} (adj : Adj n), (order adj).Perm (edgesOf adj)

/-- `csg.minimum_spanning_tree(adj)` (util.py 686). -/
def MstOrder.mst (o : MstOrder) {n : Nat} (adj : Adj n) : List (Fin n × Fin n) :=
  kruskal (o.order adj)

/-- The order of equal weights: row by row. -/
def MstOrder.rowMajor : MstOrder := ⟨edgesOf, fun _ => .refl _⟩

/-- `max(np.unique(labels, return_counts=True)[1])` (util.py 700) for the component labels of
a graph; `none` stands for the `ValueError` of `max` on an empty sequence. -/
def maxComponentSize {n : Nat} (adj : Adj n) : Option Nat :=
  ((uniqueCounts (arrayList (compLabels adj))).map Prod.snd).max?

/-- The five tries of util.py 692-703.  `best` is `(best_link, max_region_size)`, `none`
standing for `(None, inf)`. -/
def tryLinks {n : Nat} (mst : List (Fin n × Fin n)) :
    Nat → Option ((Fin n × Fin n) × Nat) → Rng → Res (Option ((Fin n × Fin n) × Nat) × Rng)
  | 0, best, r => .ok (best, r)
  | t + 1, best, r => do
    let (link, r) ← randomElementFrom mst r
    match maxComponentSize (adjOf (mst.erase link)) with
    | none => .raise (.valueError "max() arg is an empty sequence")
    | some maxSize =>
      let best := match best with
        | none => some (link, maxSize)
        | some (l, s) => if maxSize < s then some (link, maxSize) else some (l, s)
      tryLinks mst t best r

/-- The loop cutting `k` links (util.py 687-705). -/
def cutLinks {n : Nat} : Nat → List (Fin n × Fin n) → Rng → Res (List (Fin n × Fin n) × Rng)
  | 0, mst, r => .ok (mst, r)
  | k + 1, mst, r => do
    let (best, r) ← tryLinks mst 5 none r
    match best with
    | none => .raise .typeError            -- `best_link[0]` with `best_link = None`
    | some (link, _) => cutLinks k (mst.erase link) r

/-- `_randomly_divide_connected_graph` (util.py 646-706). -/
def randomlyDivide (o : MstOrder) {n : Nat} (adj : Adj n) (nRegions : Int) (r : Rng) :
    Res ((Fin n → Nat) × Rng) :=
  if ¬ nRegions > 0 then .raise (.valueError "n_regions must be positive.")
  else if ¬ nRegions ≤ n then
    .raise (.valueError "n_regions must less than or equal to the number of nodes")
  else do
    let (mst, r) ← cutLinks (nRegions - 1).toNat (o.mst adj) r
    .ok (compLabels (adjOf mst), r)

/-- What `generate_initial_sol` yields: an array of labels, or (util.py 615) a dict. -/
inductive Yielded (n : Nat)
  | array (labels : Labels n)
  | dict

/-- `region_labels = -np.ones(...)`; `region_labels[idx] = vals` (util.py 632, 642; also
azp.py 96, 107 for a single component). -/
def scatter {n : Nat} (idx : List (Fin n)) (vals : Fin idx.length → Int) (base : Labels n) :
    Labels n :=
  fun v => if h : idx.idxOf v < idx.length then vals ⟨idx.idxOf v, h⟩ else base v

/-- Body of the loop of `generate_initial_sol` (util.py 629-643) for one component. -/
def divideComponent (o : MstOrder) {n : Nat} (adj : Adj n) (compLabel : Nat) (k : Int)
    (regionsBuilt : Int) (r : Rng) : Res (Yielded n × Rng) := do
  let inComp := whereEq (compLabels adj) compLabel
  let (labs, r) ← randomlyDivide o (subAdj adj inComp) k r
  .ok (.array (scatter inComp (fun i => (labs i : Int) + regionsBuilt) fun _ => -1), r)

/-- A Python generator is the list of its remaining steps; each step runs when the consumer
asks for the next element, so its random draws are interleaved with those of the consumer. -/
abbrev Gen (n : Nat) := List (Rng → Res (Yielded n × Rng))

/-- The steps of the loop util.py 628-643. -/
def divideSteps (o : MstOrder) {n : Nat} (adj : Adj n) (d : IntDict) : List Nat → Int → Gen n
  | [], _ => []
  | c :: cs, built =>
    let k := (d.get c).getD 0   -- `items()` only lists keys of the dict
    divideComponent o adj c k built :: divideSteps o adj d cs (built + k)

/-- `generate_initial_sol` (util.py 587-643) up to the first element; what is returned is the
list of the steps yielding the elements. -/
def generateInitialSol (o : MstOrder) {n : Nat} (adj : Adj n) (nRegions : Int) (r : Rng) :
    Res (Gen n × Rng) :=
  if n = 0 then .raise (.valueError "There must be at least one area.")
  else if (n : Int) < nRegions then
    .raise (.valueError "The number of regions must be less than or equal to the number of areas")
  else if nRegions = 1 then .ok ([fun r => .ok (.dict, r)], r)
  else if (nComponents adj : Int) > nRegions then
    .raise (.valueError
      "The number of regions must not be less than the number of connected components")
  else do
    let (d, r) ← distributeRegions (arrayList (compLabels adj)) nRegions r
    .ok (divideSteps o adj d d.keys 0, r)

/-- Consume a generator completely without doing anything in between (`list(gen)`). -/
def Gen.toList {n : Nat} : Gen n → Rng → Res (List (Yielded n) × Rng)
  | [], r => .ok ([], r)
  | s :: ss, r => do
    let (y, r) ← s r
    let (ys, r) ← Gen.toList ss r
    .ok (y :: ys, r)

/-- `find_sublist_containing` (util.py 404-443) with `index=True`; `start` is the enumerate
counter. -/
def findSublistIdx {α : Type} [DecidableEq α] (el : α) : List (List α) → Nat → Res Nat
  | [], _ => .raise .lookupError
  | s :: ss, start => if s.contains el then .ok start else findSublistIdx el ss (start + 1)

/-- `find_sublist_containing` (util.py 404-443) with `index=False`. -/
def findSublist {α : Type} [DecidableEq α] (el : α) : List (List α) → Res (List α)
  | [] => .raise .lookupError
  | s :: ss => if s.contains el then .ok s else findSublist el ss

/-- `labels[area] = region_idx` (util.py 287). -/
def setItem (labels : List Nat) (area v : Nat) : Res (List Nat) :=
  if area < labels.length then .ok (labels.set area v) else .raise .indexError

/-- Inner loop of `array_from_region_list` (util.py 286-287). -/
def fillRegion (v : Nat) : List Nat → List Nat → Res (List Nat)
  | [], labels => .ok labels
  | a :: as, labels => do
    let labels ← setItem labels a v
    fillRegion v as labels

/-- Outer loop of `array_from_region_list` (util.py 285-287). -/
def fillRegions : List (List Nat) → Nat → List Nat → Res (List Nat)
  | [], _, labels => .ok labels
  | reg :: regs, v, labels => do
    let labels ← fillRegion v reg labels
    fillRegions regs (v + 1) labels

/-- `array_from_region_list` (util.py 263-288). -/
def arrayFromRegionList (regions : List (List Nat)) : Res (List Nat) :=
  fillRegions regions 0 (List.replicate (regions.map List.length).sum 0)

end Region
