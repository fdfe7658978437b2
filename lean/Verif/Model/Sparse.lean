import Mathlib.Algebra.Order.Ring.Rat
import Verif.Model.Util
/-
Sparse matrices with their stored values: what the graph functions of the library do with an adjacency
matrix whose entries are weights, some of which may be stored zeros (an edge of weight 0 in a networkx
graph, a weight 0 in a `W` object, an entry of a matrix that was set to 0).  All other files use the
pattern `Adj` of a matrix without stored zeros.

What scipy does is assumed: `nonzero` drops stored zeros, `connected_components` takes every stored entry
as an edge, `minimum_spanning_tree` visits every stored entry in the order of the values and finally
removes the zeros.  Whether indexing keeps stored zeros depends on the version of scipy; it is the
parameter `keep`.
-/
namespace Region

/-- A square `csr_matrix`: for every row the stored columns, in increasing order, with the values. -/
structure Csr (n : Nat) where
  rows : Fin n → List (Fin n × ℚ)
  sorted : ∀ i, ((rows i).map Prod.fst).Pairwise (· < ·)

namespace Csr
variable {n : Nat}

/-- Which entries are stored. -/
def stored (A : Csr n) : Adj n := fun i j => ((A.rows i).map Prod.fst).contains j

/-- Which entries are different from zero. -/
def nonzero (A : Csr n) : Adj n := fun i j => (A.rows i).any fun e => decide (e.1 = j) && decide (e.2 ≠ 0)

/-- The stored value, if there is one. -/
def get? (A : Csr n) (i j : Fin n) : Option ℚ := ((A.rows i).find? fun e => decide (e.1 = j)).map Prod.snd

/-- The value of an entry (`A[i, j]`). -/
def value (A : Csr n) (i j : Fin n) : ℚ := (A.get? i j).getD 0

/-- `is_connected` (csgraph_utils.py 12-40). -/
def isConnected (A : Csr n) : Bool := Region.isConnected A.stored

/-- `neighbors` (csgraph_utils.py 43-70): `adj[area].nonzero()[1]`. -/
def neighbors (A : Csr n) (a : Fin n) : List (Fin n) :=
  ((A.rows a).filter fun e => decide (e.2 ≠ 0)).map Prod.fst

/-- `adj[nodes[:, None], nodes[:, None].T]` (csgraph_utils.py 125-126), and
`adj[in_comp][:, in_comp]` (util.py 634-635). -/
def sub (keep : Bool) (A : Csr n) (nodes : List (Fin n)) : Csr nodes.length where
  rows i := (List.finRange nodes.length).filterMap fun j =>
    match A.get? (nodes.get i) (nodes.get j) with
    | none => none
    | some w => if keep || decide (w ≠ 0) then some (j, w) else none
  sorted i := by
    rw [List.map_filterMap]
    refine (List.pairwise_lt_finRange _).filterMap _ ?_
    intro a a' h b hb b' hb'
    cases h1 : A.get? (nodes.get i) (nodes.get a) <;> cases h2 : A.get? (nodes.get i) (nodes.get a') <;>
      simp only [h1, h2, Option.map_none, reduceCtorEq] at hb hb'
    split at hb <;> split at hb' <;> simp at hb hb'
    rw [← hb, ← hb']; exact h

/-- The order in which `csg.minimum_spanning_tree` visits the stored entries: by value, equal values in an
unspecified way. -/
structure Order where
  order : {n : Nat} → Csr n → List (Fin n × Fin n)
  perm : ∀ {n : Nat} (A : Csr n), (order A).Perm (edgesOf A.stored)
  sorted : ∀ {n : Nat} (A : Csr n), (order A).Pairwise fun e f => A.value e.1 e.2 ≤ A.value f.1 f.2

/-- `csg.minimum_spanning_tree(adj)` (util.py 686): Kruskal's algorithm; in the end the zeros are
removed. -/
def mst (o : Order) (A : Csr n) : List (Fin n × Fin n) :=
  (kruskal (o.order A)).filter fun e => A.nonzero e.1 e.2

/-- The loop of `assert_feasible` (util.py 762-769). -/
def assertLoop (keep : Bool) (A : Csr n) (solution : Labels n) : List Int → Res Unit
  | [] => .ok ()
  | r :: rs =>
    if (A.sub keep (whereEq solution r)).isConnected then assertLoop keep A solution rs
    else .raise (.valueError s!"Region {r} is not spatially contiguous.")

/-- `assert_feasible` (util.py 736-769). -/
def assertFeasible (keep : Bool) (A : Csr n) (solution : Labels n) (nRegions : Option Int) :
    Res Unit :=
  let regions := uniqueSorted (arrayList solution)
  match nRegions with
  | some p =>
    if (regions.length : Int) ≠ p then
      .raise (.valueError s!"The number of regions is {n} but should be {p}")
    else assertLoop keep A solution regions
  | none => assertLoop keep A solution regions

/-- `separate_components` (util.py 797-848). -/
def separateComponents (A : Csr n) (labels : Labels n) : List (Labels n) :=
  Region.separateComponents A.stored labels

/-- `_randomly_divide_connected_graph` (util.py 646-706). -/
def randomlyDivide (o : Order) (A : Csr n) (nRegions : Int) (r : Rng) :
    Res ((Fin n → Nat) × Rng) :=
  if ¬ nRegions > 0 then .raise (.valueError "n_regions must be positive.")
  else if ¬ nRegions ≤ n then
    .raise (.valueError "n_regions must less than or equal to the number of nodes")
  else do
    let (mst, r) ← cutLinks (nRegions - 1).toNat (A.mst o) r
    .ok (compLabels (adjOf mst), r)

/-- Body of the loop of `generate_initial_sol` (util.py 629-643) for one component. -/
def divideComponent (o : Order) (keep : Bool) (A : Csr n) (compLabel : Nat) (k : Int)
    (regionsBuilt : Int) (r : Rng) : Res (Yielded n × Rng) := do
  let inComp := whereEq (compLabels A.stored) compLabel
  let (labs, r) ← randomlyDivide o (A.sub keep inComp) k r
  .ok (.array (scatter inComp (fun i => (labs i : Int) + regionsBuilt) fun _ => -1), r)

/-- The steps of the loop util.py 628-643. -/
def divideSteps (o : Order) (keep : Bool) (A : Csr n) (d : IntDict) : List Nat → Int → Gen n
  | [], _ => []
  | c :: cs, built =>
    let k := (d.get c).getD 0
    divideComponent o keep A c k built :: divideSteps o keep A d cs (built + k)

/-- `generate_initial_sol` (util.py 587-643). -/
def generateInitialSol (o : Order) (keep : Bool) (A : Csr n) (nRegions : Int) (r : Rng) :
    Res (Gen n × Rng) :=
  if n = 0 then .raise (.valueError "There must be at least one area.")
  else if (n : Int) < nRegions then
    .raise (.valueError "The number of regions must be less than or equal to the number of areas")
  else if nRegions = 1 then .ok ([fun r => .ok (.dict, r)], r)
  else if (nComponents A.stored : Int) > nRegions then
    .raise (.valueError
      "The number of regions must not be less than the number of connected components")
  else do
    let (d, r) ← distributeRegions (arrayList (compLabels A.stored)) nRegions r
    .ok (divideSteps o keep A d d.keys 0, r)

end Csr

end Region
