import Mathlib.Data.Int.Log
import Mathlib.Data.Rat.Floor
import Verif.Model.PRegionsExact
/-
Model of `/repo/region/max_p_regions/exact.py`: `MaxPRegionsExact.fit_from_scipy_sparse_matrix`.

The decision variables are those of the order model for as many regions and orders as there are areas.
-/
namespace Region

/-- The `spatially_extensive_attr` and `threshold` arguments: one number per area and a number; a row of
numbers per area and a number, an array, or something else (a list of numbers).  One number per
area together with a threshold that is not a number is not modelled. -/
inductive Quota (n : Nat)
  | scalar (s : Fin n → ℚ) (thr : ℚ)
  | rowsReal {q : Nat} (s : Fin n → Row q) (thr : ℚ)
  | rowsArray {q : Nat} (s : Fin n → Row q) (thr : List ℚ)
  | rowsOther {q : Nat} (s : Fin n → Row q) (thr : List ℚ)

/-- The columns for which constraint (5) is added, each with its threshold (exact.py 125-140);
`threshold[el]` raises `IndexError` if the array is too short. -/
def Quota.cols {n : Nat} : Quota n → Res (List ((Fin n → ℚ) × ℚ))
  | .scalar s thr => .ok [(s, thr)]
  | .rowsReal (q := q) s thr => .ok ((List.finRange q).map fun el => (fun i => s i el, thr))
  | .rowsArray (q := q) s thr =>
    if thr.length < q then .raise .indexError
    else .ok ((List.finRange q).map fun el => (fun i => s i el, thr.getD el 0))
  | .rowsOther _ _ => .ok []

section
variable {n : Nat} (adj : Adj n) (d : Fin n → Fin n → ℚ)

/-- `10**h` (exact.py 92, 108): `h = 1 + floor(log10(…))`; `log10` raises `ValueError` unless the sum of
the dissimilarities is positive.  `Int.log 10` is the exact floor of the logarithm. -/
def maxpWeight : Res ℚ :=
  let total := ((upperTriangle n).map fun e => d e.1 e.2).sum
  if total ≤ 0 then .raise (.valueError "math domain error")
  else .ok ((10 : ℚ) ^ (1 + Int.log 10 total))

/-- The dicts `t`, `x` (exact.py 95-104). -/
def maxpDecls : List (Decl (OrderVar n)) :=
  (upperTriangle n).map (fun e => ⟨.t e.1 e.2, 0, some 1⟩) ++
  (List.finRange n).flatMap fun i => (List.range n).flatMap fun k =>
    (List.range n).map fun o => ⟨.x i k o, 0, some 1⟩

/-- The objective (exact.py 108-109). -/
def maxpObjective (w : ℚ) : Lin (OrderVar n) :=
  (-w) * Lin.sum ((List.range n).flatMap fun k => (List.finRange n).map fun i =>
      Lin.var (OrderVar.x i k 0)) +
    Lin.sum ((upperTriangle n).map fun e => d e.1 e.2 * Lin.var (OrderVar.t e.1 e.2))

/-- Constraint (2) (exact.py 113-114). -/
def maxp2 : List (Constr (OrderVar n)) :=
  (List.range n).map fun k =>
    Lin.sum ((List.finRange n).map fun i => Lin.var (OrderVar.x i k 0)) ≤ₗ Lin.num 1

/-- Constraint (3) (exact.py 116-117). -/
def maxp3 : List (Constr (OrderVar n)) :=
  (List.finRange n).map fun i =>
    Lin.sum ((List.range n).flatMap fun k => (List.range n).map fun o =>
      Lin.var (OrderVar.x i k o)) =ₗ Lin.num 1

/-- Constraint (4) (exact.py 119-123). -/
def maxp4 : List (Constr (OrderVar n)) :=
  (List.finRange n).flatMap fun i => (List.range n).flatMap fun k =>
    (List.range (n - 1)).map fun o =>
      Lin.var (OrderVar.x i k (o + 1)) ≤ₗ
        Lin.sum ((neighbors adj i).map fun j => Lin.var (OrderVar.x j k o))

/-- Constraint (5) (exact.py 125-140). -/
def maxp5 (cols : List ((Fin n → ℚ) × ℚ)) : List (Constr (OrderVar n)) :=
  cols.flatMap fun c => (List.range n).map fun k =>
    Lin.sum ((List.finRange n).flatMap fun i => (List.range n).map fun o =>
        c.1 i * Lin.var (OrderVar.x i k o)) ≥ₗ
      c.2 * Lin.sum ((List.finRange n).map fun i => Lin.var (OrderVar.x i k 0))

/-- Constraint (6) (exact.py 142-145). -/
def maxp6 : List (Constr (OrderVar n)) :=
  (upperTriangle n).flatMap fun e => (List.range n).map fun k =>
    Lin.var (OrderVar.t e.1 e.2) ≥ₗ
      Lin.sum ((List.range n).map fun o =>
        Lin.var (OrderVar.x e.1 k o) + Lin.var (OrderVar.x e.2 k o)) - Lin.num 1

/-- The additional constraint (exact.py 152-153). -/
def maxpFirst : List (Constr (OrderVar n)) :=
  ((List.finRange n).take 1).flatMap fun i => (List.range n).map fun o =>
    Lin.var (OrderVar.x i 0 o) =ₗ Lin.num (if o = 0 then 1 else 0)

/-- The problem built by `MaxPRegionsExact.fit_from_scipy_sparse_matrix` (exact.py 78-153). -/
def maxpLp (quota : Quota n) : Res (Lp (OrderVar n)) := do
  let w ← maxpWeight d
  let cols ← quota.cols
  Lp.build maxpDecls (maxpObjective d w)
    (maxp2 ++ maxp3 ++ maxp4 adj ++ maxp5 cols ++ maxp6 ++ maxpFirst)

/-- The labels read off the solution (exact.py 158-163). -/
def maxpDecode (vals : OrderVar n → Option ℚ) : Labels n := fun i =>
  ((List.range n).flatMap fun k => (List.range n).map fun o => (k, o)).foldl
    (fun r ko => if vals (.x i ko.1 ko.2) = some 1 then (ko.1 : Int) else r) 0

/-- `MaxPRegionsExact.fit_from_scipy_sparse_matrix` (exact.py 33-165): the value given to `labels_`.
Here the rows are reshaped to rows, so that `d[i, j]` is the metric applied to them (89-91). -/
def maxpExactFit {m : Nat} (attr : Fin n → Row m) (quota : Quota n) (solve : Solver (OrderVar n))
    (metric : Metric) : Res (Labels n) := do
  let prob ← maxpLp adj (fun i j => metric m (attr i) (attr j)) quota
  .ok (maxpDecode (solve prob))

end

end Region
