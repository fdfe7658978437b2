import Verif.Model.Lp
import Verif.Model.Objective
import Verif.Model.MaxPHeu
/-
Model of `/repo/region/p_regions/exact.py`: the integer programs, the decoding of their solutions
and `PRegionsExact.fit_from_scipy_sparse_matrix`.

The solver is a parameter: it maps a problem to the values of the variables it leaves behind
(`None` possible).  `prob.status` is not looked at by the code.
-/
namespace Region

/-- `[(i, j) for i, j in II if i < j]` (exact.py 326-327, 441-442, 527-528). -/
def upperTriangle (n : Nat) : List (Fin n × Fin n) :=
  (List.finRange n).flatMap fun i => ((List.finRange n).filter fun j => decide (i < j)).map (i, ·)

/-- `II` (exact.py 326, 441, 527). -/
def allPairs (n : Nat) : List (Fin n × Fin n) :=
  (List.finRange n).flatMap fun i => (List.finRange n).map (i, ·)

/-- A scikit-learn metric: a value for two rows with the same number of columns. -/
abbrev Metric := (m : Nat) → Row m → Row m → ℚ

/-- `d[i, j]` (exact.py 329-334, 445-450, 529-534).  The rows are reshaped to columns, so the
metric compares `m` samples of one feature with `m` samples of one feature and answers with an
`m × m` matrix.  `lpSum(d[i, j] * t[i, j] …)` adds up all entries of nested sequences, so that the
coefficient of `t[i, j]` is the sum of the entries. -/
def columnD (metric : Metric) {n m : Nat} (attr : Fin n → Row m) (i j : Fin n) : ℚ :=
  ((List.finRange m).flatMap fun a => (List.finRange m).map fun b =>
    metric 1 (fun _ => attr i a) (fun _ => attr j b)).sum

/-- The values a solver leaves in the variables. -/
abbrev Solver (V : Type) := Lp V → V → Option ℚ

/-! ### The flow model -/

/-- The decision variables of `_flow` (exact.py 337-357). -/
inductive FlowVar (n : Nat)
  | t (i j : Fin n)
  | f (i j : Fin n) (k : Nat)
  | y (i : Fin n) (k : Nat)
  | w (i : Fin n) (k : Nat)
  deriving DecidableEq

section flow
variable {n : Nat} (adj : Adj n) (d : Fin n → Fin n → ℚ) (p : Nat)

/-- The dicts `t`, `f`, `y`, `w` (exact.py 337-357). -/
def flowDecls : List (Decl (FlowVar n)) :=
  (upperTriangle n).map (fun e => ⟨.t e.1 e.2, 0, some 1⟩) ++
  ((List.finRange n).flatMap fun i => (neighbors adj i).flatMap fun j =>
    (List.range p).map fun k => ⟨.f i j k, 0, none⟩) ++
  ((List.finRange n).flatMap fun i => (List.range p).map fun k => ⟨.y i k, 0, some 1⟩) ++
  (List.finRange n).flatMap fun i => (List.range p).map fun k => ⟨.w i k, 0, some 1⟩

/-- Constraint (21) (exact.py 365-366). -/
def flow21 : List (Constr (FlowVar n)) :=
  (List.finRange n).map fun i =>
    Lin.sum ((List.range p).map fun k => Lin.var (FlowVar.y i k)) =ₗ Lin.num 1

/-- Constraint (22) (exact.py 368-370). -/
def flow22 : List (Constr (FlowVar n)) :=
  (List.finRange n).flatMap fun i => (List.range p).map fun k =>
    Lin.var (FlowVar.w i k) ≤ₗ Lin.var (FlowVar.y i k)

/-- Constraint (23) (exact.py 372-373). -/
def flow23 : List (Constr (FlowVar n)) :=
  (List.range p).map fun k =>
    Lin.sum ((List.finRange n).map fun i => Lin.var (FlowVar.w i k)) =ₗ Lin.num 1

/-- Constraint (24) (exact.py 375-378). -/
def flow24 : List (Constr (FlowVar n)) :=
  (List.finRange n).flatMap fun i => (neighbors adj i).flatMap fun j => (List.range p).map fun k =>
    Lin.var (FlowVar.f i j k) ≤ₗ ((n : ℚ) - (p : ℚ)) * Lin.var (FlowVar.y i k)

/-- Constraint (25) (exact.py 380-383). -/
def flow25 : List (Constr (FlowVar n)) :=
  (List.finRange n).flatMap fun i => (neighbors adj i).flatMap fun j => (List.range p).map fun k =>
    Lin.var (FlowVar.f i j k) ≤ₗ ((n : ℚ) - (p : ℚ)) * Lin.var (FlowVar.y j k)

/-- Constraint (26) (exact.py 385-388). -/
def flow26 : List (Constr (FlowVar n)) :=
  (List.finRange n).flatMap fun i => (List.range p).map fun k =>
    Lin.sum ((neighbors adj i).map fun j => Lin.var (FlowVar.f i j k) - Lin.var (FlowVar.f j i k)) ≥ₗ
      Lin.var (FlowVar.y i k) - ((n : ℚ) - (p : ℚ)) * Lin.var (FlowVar.w i k)

/-- Constraint (27) (exact.py 390-392). -/
def flow27 : List (Constr (FlowVar n)) :=
  (upperTriangle n).flatMap fun e => (List.range p).map fun k =>
    Lin.var (FlowVar.t e.1 e.2) ≥ₗ Lin.var (FlowVar.y e.1 k) + Lin.var (FlowVar.y e.2 k) - Lin.num 1

/-- The problem built by `_flow` (exact.py 320-392). -/
def flowLp : Res (Lp (FlowVar n)) :=
  Lp.build (flowDecls adj p)
    (Lin.sum ((upperTriangle n).map fun e => d e.1 e.2 * Lin.var (FlowVar.t e.1 e.2)))
    (flow21 p ++ flow22 p ++ flow23 p ++ flow24 adj p ++ flow25 adj p ++ flow26 adj p ++ flow27 p)

/-- The labels read off the solution (exact.py 406-411): `result[i]` starts as 0 and is set to every
`k` in turn for which `y[i, k].varValue == 1`. -/
def flowDecode (vals : FlowVar n → Option ℚ) : Labels n := fun i =>
  (List.range p).foldl (fun r k => if vals (.y i k) = some 1 then (k : Int) else r) 0

/-- `_flow` (exact.py 298-411). -/
def flow (solve : Solver (FlowVar n)) : Res (Labels n) := do
  let prob ← flowLp adj d p
  .ok (flowDecode p (solve prob))

end flow

/-! ### The order model -/

/-- The decision variables of `_order` (exact.py 453-462). -/
inductive OrderVar (n : Nat)
  | t (i j : Fin n)
  | x (i : Fin n) (k o : Nat)
  deriving DecidableEq

section order
variable {n : Nat} (adj : Adj n) (d : Fin n → Fin n → ℚ) (p : Nat)

/-- The dicts `t`, `x` (exact.py 453-462); `O = range(n_areas - n_regions)`. -/
def orderDecls : List (Decl (OrderVar n)) :=
  (upperTriangle n).map (fun e => ⟨.t e.1 e.2, 0, some 1⟩) ++
  (List.finRange n).flatMap fun i => (List.range p).flatMap fun k =>
    (List.range (n - p)).map fun o => ⟨.x i k o, 0, some 1⟩

/-- Constraint (14) (exact.py 470-471). -/
def order14 : List (Constr (OrderVar n)) :=
  (List.range p).map fun k =>
    Lin.sum ((List.finRange n).map fun i => Lin.var (OrderVar.x i k 0)) =ₗ Lin.num 1

/-- Constraint (15) (exact.py 473-474). -/
def order15 : List (Constr (OrderVar n)) :=
  (List.finRange n).map fun i =>
    Lin.sum ((List.range p).flatMap fun k => (List.range (n - p)).map fun o =>
      Lin.var (OrderVar.x i k o)) =ₗ Lin.num 1

/-- Constraint (16) (exact.py 476-480); `range(1, len(O))` is written as `o + 1` for the `o` below
`len(O) - 1`. -/
def order16 : List (Constr (OrderVar n)) :=
  (List.finRange n).flatMap fun i => (List.range p).flatMap fun k =>
    (List.range (n - p - 1)).map fun o =>
      Lin.var (OrderVar.x i k (o + 1)) ≤ₗ
        Lin.sum ((neighbors adj i).map fun j => Lin.var (OrderVar.x j k o))

/-- Constraint (17) (exact.py 482-485). -/
def order17 : List (Constr (OrderVar n)) :=
  (upperTriangle n).flatMap fun e => (List.range p).map fun k =>
    Lin.var (OrderVar.t e.1 e.2) ≥ₗ
      Lin.sum ((List.range (n - p)).map fun o =>
        Lin.var (OrderVar.x e.1 k o) + Lin.var (OrderVar.x e.2 k o)) - Lin.num 1

/-- The problem built by `_order` (exact.py 434-489). -/
def orderLp : Res (Lp (OrderVar n)) :=
  Lp.build (orderDecls p)
    (Lin.sum ((upperTriangle n).map fun e => d e.1 e.2 * Lin.var (OrderVar.t e.1 e.2)))
    (order14 p ++ order15 p ++ order16 adj p ++ order17 p)

/-- The labels read off the solution (exact.py 492-498). -/
def orderDecode (vals : OrderVar n → Option ℚ) : Labels n := fun i =>
  ((List.range p).flatMap fun k => (List.range (n - p)).map fun o => (k, o)).foldl
    (fun r ko => if vals (.x i ko.1 ko.2) = some 1 then (ko.1 : Int) else r) 0

/-- `_order` (exact.py 414-498). -/
def order (solve : Solver (OrderVar n)) : Res (Labels n) := do
  let prob ← orderLp adj d p
  .ok (orderDecode p (solve prob))

end order

/-! ### The tree model -/

/-- The decision variables of `_tree` (exact.py 536-540). -/
inductive TreeVar (n : Nat)
  | t (i j : Fin n)
  | x (i j : Fin n)
  | u (i : Fin n)
  deriving DecidableEq

section tree
variable {n : Nat} (adj : Adj n) (d : Fin n → Fin n → ℚ) (p : Nat)

/-- The dicts `t`, `x`, `u` (exact.py 536-540). -/
def treeDecls : List (Decl (TreeVar n)) :=
  (allPairs n).map (fun e => ⟨.t e.1 e.2, 0, some 1⟩) ++
  (allPairs n).map (fun e => ⟨.x e.1 e.2, 0, some 1⟩) ++
  (List.finRange n).map fun i => ⟨.u i, 0, none⟩

/-- Constraint (4) (exact.py 548-549). -/
def tree4 : List (Constr (TreeVar n)) :=
  [Lin.sum ((List.finRange n).flatMap fun i => (neighbors adj i).map fun j => Lin.var (TreeVar.x i j)) =ₗ
    Lin.num ((n : ℚ) - (p : ℚ))]

/-- Constraint (5) (exact.py 551-552). -/
def tree5 : List (Constr (TreeVar n)) :=
  (List.finRange n).map fun i =>
    Lin.sum ((neighbors adj i).map fun j => Lin.var (TreeVar.x i j)) ≤ₗ Lin.num 1

/-- Constraint (6) (exact.py 554-558). -/
def tree6 : List (Constr (TreeVar n)) :=
  (List.finRange n).flatMap fun i => (List.finRange n).flatMap fun j =>
    ((List.finRange n).filter fun m => decide (i ≠ j ∧ i ≠ m ∧ j ≠ m)).map fun m =>
      Lin.var (TreeVar.t i j) + Lin.var (TreeVar.t i m) - Lin.var (TreeVar.t j m) ≤ₗ Lin.num 1

/-- Constraint (7) (exact.py 560-561). -/
def tree7 : List (Constr (TreeVar n)) :=
  (allPairs n).map fun e => Lin.var (TreeVar.t e.1 e.2) - Lin.var (TreeVar.t e.2 e.1) =ₗ Lin.num 0

/-- Constraint (8) (exact.py 563-565). -/
def tree8 : List (Constr (TreeVar n)) :=
  (List.finRange n).flatMap fun i => (neighbors adj i).map fun j =>
    Lin.var (TreeVar.x i j) ≤ₗ Lin.var (TreeVar.t i j)

/-- Constraint (9) (exact.py 567-571). -/
def tree9 : List (Constr (TreeVar n)) :=
  (List.finRange n).flatMap fun i => (neighbors adj i).map fun j =>
    Lin.var (TreeVar.u i) - Lin.var (TreeVar.u j) + ((n : ℚ) - (p : ℚ)) * Lin.var (TreeVar.x i j) +
      ((n : ℚ) - (p : ℚ) - 2) * Lin.var (TreeVar.x j i) ≤ₗ Lin.num ((n : ℚ) - (p : ℚ) - 1)

/-- Constraint (10) (exact.py 573-575). -/
def tree10 : List (Constr (TreeVar n)) :=
  (List.finRange n).flatMap fun i =>
    [Lin.var (TreeVar.u i) ≤ₗ Lin.num ((n : ℚ) - (p : ℚ)), Lin.var (TreeVar.u i) ≥ₗ Lin.num 1]

/-- The problem built by `_tree` (exact.py 521-579). -/
def treeLp : Res (Lp (TreeVar n)) :=
  Lp.build treeDecls
    (Lin.sum ((upperTriangle n).map fun e => d e.1 e.2 * Lin.var (TreeVar.t e.1 e.2)))
    (tree4 adj p ++ tree5 adj ++ tree6 ++ tree7 ++ tree8 adj ++ tree9 adj p ++ tree10 p)

/-- The list of regions read off the solution (exact.py 585-595).  `idx` is `idx_copy`;
`idx_copy.pop()` takes any element (which one is read from the tape) and raises `KeyError` when
the set is empty. -/
def treeRegions (vals : TreeVar n → Option ℚ) :
    Nat → List (Fin n) → Rng → Res (List (List (Fin n)))
  | 0, _, _ => .ok []
  | k + 1, idx, r =>
    match idx[r 0 % idx.length]? with
    | none => .raise .keyError
    | some area => do
      let rest := idx.erase area
      let reg := area :: rest.filter fun o => decide (vals (.t area o) = some 1)
      let regs ← treeRegions vals k (rest.filter fun o => !reg.contains o) r.next
      .ok (reg :: regs)

/-- The decoding of `_tree` (exact.py 585-598). -/
def treeDecode (vals : TreeVar n → Option ℚ) (r : Rng) : Res (List Nat) := do
  let regions ← treeRegions vals p (List.finRange n) r
  arrayFromRegionList (regions.map fun reg => reg.map Fin.val)

/-- `_tree` (exact.py 501-598); `r` decides what `set.pop` takes. -/
def tree (solve : Solver (TreeVar n)) (r : Rng) : Res (List Nat) := do
  let prob ← treeLp adj d p
  treeDecode p (solve prob) r

end tree

/-! ### `fit` -/

/-- The `method` argument after `_check_method` (exact.py 97-103, 290-295). -/
inductive Method
  | flow
  | order
  | tree
  deriving DecidableEq

/-- The solvers behind the `solver` argument for the three kinds of problems. -/
structure Solvers (n : Nat) where
  flow : Solver (FlowVar n)
  order : Solver (OrderVar n)
  tree : Solver (TreeVar n)

/-- `PRegionsExact.fit_from_scipy_sparse_matrix` (exact.py 45-110): the value given to `labels_`.
The attributes have been brought to two dimensions (93-94).  Checking the `method`, `solver` and
`metric` arguments is modelled separately. -/
def exactFit {n m : Nat} (adj : Adj n) (attr : Fin n → Row m) (nRegions : Int) (method : Method)
    (s : Solvers n) (metric : Metric) (r : Rng) : Res (List Int) :=
  if nRegions ≤ 0 then
    .raise (.valueError "The n_regions argument must be a positive integer.")
  else if (n : Int) < nRegions then
    .raise (.valueError "The number of regions must be less than the number of areas.")
  else
    let d := columnD metric attr
    let p := nRegions.toNat
    match method with
    | .flow => do
      let l ← flow adj d p s.flow
      .ok (arrayList l)
    | .order => do
      let l ← order adj d p s.order
      .ok (arrayList l)
    | .tree => do
      let l ← tree adj d p s.tree r
      .ok (l.map fun k : Nat => (k : Int))

end Region
