import Mathlib.Data.List.FinRange
import Verif.Basic
/-
Model of `/repo/region/csgraph_utils.py` and of the scipy routine it relies on.
-/
namespace Region

/-- The non-zero pattern of a square sparse matrix with `n` rows (a csr_matrix without
explicitly stored zeros). -/
abbrev Adj (n : Nat) := Fin n → Fin n → Bool

/-- `adj.nonzero()`: the stored entries in row-major order. -/
def edgesOf {n : Nat} (adj : Adj n) : List (Fin n × Fin n) :=
  (List.finRange n).flatMap fun i =>
    ((List.finRange n).filter fun j => adj i j).map fun j => (i, j)

/-- One step of the merge procedure computing connected components: the classes of the two
ends of an edge are united. -/
def mergeClass {n : Nat} (c : Fin n → Fin n) (e : Fin n × Fin n) : Fin n → Fin n :=
  fun x => if c x = c e.1 then c e.2 else c x

/-- A representative of the connected component of every node. -/
def compRepr {n : Nat} (adj : Adj n) : Fin n → Fin n :=
  (edgesOf adj).foldl mergeClass id

/-- The nodes that are the first (smallest) node of their component. -/
def firstNodes {n : Nat} (adj : Adj n) : List (Fin n) :=
  (List.finRange n).filter fun i =>
    (List.finRange n).all fun j => !(decide (j < i) && decide (compRepr adj j = compRepr adj i))

/-- `csg.connected_components(adj, directed=False)[0]` (and, because the default
`connection='weak'` ignores directions, of `csg.connected_components(adj)[0]`): the number of
connected components; 0 for the matrix without rows. -/
def nComponents {n : Nat} (adj : Adj n) : Nat := (firstNodes adj).length

/-- `csg.connected_components(adj)[1]`: components are numbered in the order in which their
first node appears. -/
def compLabels {n : Nat} (adj : Adj n) : Fin n → Nat :=
  fun x => (firstNodes adj).findIdx fun f => decide (compRepr adj f = compRepr adj x)

/-- `is_connected` (csgraph_utils.py 12-40): `True if n_connected_components == 1`. -/
def isConnected {n : Nat} (adj : Adj n) : Bool := nComponents adj == 1

/-- `neighbors` (csgraph_utils.py 43-70): `adj[area].nonzero()[1]`. -/
def neighbors {n : Nat} (adj : Adj n) (a : Fin n) : List (Fin n) :=
  (List.finRange n).filter fun b => adj a b

/-- `adj[nodes[:, None], nodes[:, None].T]` (csgraph_utils.py 125-126). -/
def subAdj {n : Nat} (adj : Adj n) (nodes : List (Fin n)) : Adj nodes.length :=
  fun i j => adj (nodes.get i) (nodes.get j)

/-- `nodes[np.in1d(nodes, wo_nodes, invert=True)]` (csgraph_utils.py 122-124). -/
def dropNodes {n : Nat} (nodes wo : List (Fin n)) : List (Fin n) :=
  nodes.filter fun x => !(wo.contains x)

/-- `sub_adj_matrix(adj, nodes, wo_nodes)` with `wo_nodes` given (csgraph_utils.py 73-126). -/
def subAdjWo {n : Nat} (adj : Adj n) (nodes wo : List (Fin n)) : Adj (dropNodes nodes wo).length :=
  subAdj adj (dropNodes nodes wo)

/-- `np.where(labels == r)[0]`: the indices holding `r`, ascending. -/
def whereEq {n : Nat} {α : Type} [DecidableEq α] (labels : Fin n → α) (r : α) : List (Fin n) :=
  (List.finRange n).filter fun i => decide (labels i = r)

end Region
