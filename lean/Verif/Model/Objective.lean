import Mathlib.Algebra.Order.Ring.Rat
import Mathlib.Algebra.BigOperators.Group.List.Basic
import Verif.Model.Util
/-
Model of `/repo/region/objective_function.py`.

An attribute row has an arbitrary type `ρ`; a metric is a function `ρ → ρ → ℚ` (what the metric
returns for two rows).  Values are exact rationals.
-/
namespace Region

/-- `ObjectiveFunction` (objective_function.py 9-59).  `update = none` stands for the `ValueError`
that the scikit-learn metrics raise when one of the regions involved has no area
("Found array with 0 sample(s)"). -/
structure Objective (ρ : Type) where
  call : {k : Nat} → Labels k → (Fin k → ρ) → ℚ
  update : {k : Nat} → Fin k → Int → Labels k → (Fin k → ρ) → Option ℚ

/-- `itertools.combinations(l, 2)`. -/
def combinations2 {α : Type} : List α → List (α × α)
  | [] => []
  | x :: xs => xs.map (fun y => (x, y)) ++ combinations2 xs

/-- `ObjectiveFunctionPairwise.__call__` (objective_function.py 75-80). -/
def pairwiseCall {ρ : Type} (metric : ρ → ρ → ℚ) {k : Nat} (labels : Labels k)
    (attr : Fin k → ρ) : ℚ :=
  ((uniqueSorted (arrayList labels)).flatMap fun r =>
    (combinations2 (whereEq labels r)).map fun p => metric (attr p.1) (attr p.2)).sum

/-- `sum(self.metric(attr[labels == r], attr[moving_area].reshape(1, -1)))`
(objective_function.py 85-91). -/
def distancesTo {ρ : Type} (metric : ρ → ρ → ℚ) {k : Nat} (labels : Labels k)
    (attr : Fin k → ρ) (r : Int) (a : Fin k) : Option ℚ :=
  if whereEq labels r = [] then none
  else some ((whereEq labels r).map fun i => metric (attr i) (attr a)).sum

/-- `ObjectiveFunctionPairwise.update` (objective_function.py 82-92). -/
def pairwiseUpdate {ρ : Type} (metric : ρ → ρ → ℚ) {k : Nat} (a : Fin k) (recipient : Int)
    (labels : Labels k) (attr : Fin k → ρ) : Option ℚ := do
  let donorDiff ← distancesTo metric labels attr (labels a) a
  let recipientDiff ← distancesTo metric labels attr recipient a
  some (recipientDiff - donorDiff)

/-- `ObjectiveFunctionPairwise(metric)`. -/
def pairwise {ρ : Type} (metric : ρ → ρ → ℚ) : Objective ρ where
  call := pairwiseCall metric
  update := pairwiseUpdate metric

/-- `ObjectiveFunctionCenter._intraregional_heterogeneity` (objective_function.py 139-144). -/
def intraregional {ρ : Type} (metric : ρ → ρ → ℚ) (center : List ρ → ρ) (reduction : List ℚ → ℚ)
    {k : Nat} (labels : Labels k) (r : Int) (attr : Fin k → ρ) : Option ℚ :=
  let rows := (whereEq labels r).map attr
  if rows = [] then none
  else some (reduction (rows.map fun x => metric x (center rows)))

/-- `ObjectiveFunctionCenter.__call__` (objective_function.py 116-137).  Every listed region has
an area, so the `getD` is never used. -/
def centerCall {ρ : Type} (metric : ρ → ρ → ℚ) (center : List ρ → ρ) (reduction : List ℚ → ℚ)
    {k : Nat} (labels : Labels k) (attr : Fin k → ρ) : ℚ :=
  reduction ((uniqueSorted (arrayList labels)).map fun r =>
    (intraregional metric center reduction labels r attr).getD 0)

/-- `ObjectiveFunctionCenter.update` (objective_function.py 146-165): the returned difference
(`none`: an exception) and the contents of the `labels` array afterwards. -/
def centerUpdate {ρ : Type} (metric : ρ → ρ → ℚ) (center : List ρ → ρ) (reduction : List ℚ → ℚ)
    {k : Nat} (a : Fin k) (recipient : Int) (labels : Labels k) (attr : Fin k → ρ) :
    Option ℚ × Labels k :=
  let donor := labels a
  match intraregional metric center reduction labels donor attr,
      intraregional metric center reduction labels recipient attr with
  | some donorBefore, some recipientBefore =>
    let labels1 := makeMove a recipient labels
    match intraregional metric center reduction labels1 donor attr,
        intraregional metric center reduction labels1 recipient attr with
    | some donorAfter, some recipientAfter =>
      (some (reduction [donorAfter, recipientAfter] - reduction [donorBefore, recipientBefore]),
        makeMove a donor labels1)
    | _, _ => (none, labels1)
  | _, _ => (none, labels)

/-- `ObjectiveFunctionCenter(metric, center, reduction)`. -/
def centered {ρ : Type} (metric : ρ → ρ → ℚ) (center : List ρ → ρ) (reduction : List ℚ → ℚ) :
    Objective ρ where
  call := centerCall metric center reduction
  update a r labels attr := (centerUpdate metric center reduction a r labels attr).1

/-- A row of `m` attribute values. -/
abbrev Row (m : Nat) := Fin m → ℚ

/-- `sklearn.metrics.pairwise.manhattan_distances` for two rows. -/
def manhattan {m : Nat} (x y : Row m) : ℚ := ((List.finRange m).map fun i => |x i - y i|).sum

/-- `np.mean(rows, axis=0)`. -/
def meanRow {m : Nat} (rows : List (Row m)) : Row m :=
  fun i => (rows.map fun x => x i).sum / rows.length

/-- `np.max`, on the non-empty lists it is called with. -/
def listMax : List ℚ → ℚ
  | [] => 0
  | x :: xs => xs.foldl max x

end Region
