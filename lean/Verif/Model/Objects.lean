import Verif.Model.Adapters
import Verif.Model.AzpSa
import Verif.Model.MaxPExact
import Verif.Model.MaxPHeu
/-
The attributes of the clustering objects before, during and after a call of `fit`: a method may raise
after it has assigned some attributes, and the assigned values stay.

Labels are lists, because one object can be used for maps of different sizes.  Attributes that only serve
as working memory of the algorithms are left out here; they are part of the models of the algorithms.
-/
namespace Region

/-- A method of an object with attributes `σ`: its outcome, and the attributes afterwards. -/
def Py (σ α : Type) := σ → Res α × σ

namespace Py
variable {σ α β : Type}

/-- Sequencing of statements; after an exception the attributes stay as they are. -/
def bind (x : Py σ α) (f : α → Py σ β) : Py σ β := fun s =>
  match x s with
  | (.ok a, s) => f a s
  | (.raise e, s) => (.raise e, s)
  | (.timeout, s) => (.timeout, s)

instance : Monad (Py σ) where
  pure a := fun s => (.ok a, s)
  bind := bind

/-- A computation that does not touch the object. -/
def lift (x : Res α) : Py σ α := fun s => (x, s)

/-- An assignment to an attribute. -/
def set (f : σ → σ) : Py σ Unit := fun s => (.ok (), f s)

/-- Reading an attribute. -/
def read (f : σ → Res α) : Py σ α := fun s => (f s, s)

end Py

/-- An attribute holding a distance metric; before the first `fit` it is the function
`raise_distance_metric_not_set` (util.py 510-511). -/
inductive MetricAttr (φ : Type)
  | notSet
  | is (f : MetricFn φ)
  deriving DecidableEq

/-- Calling the metric stored in an object: `MissingMetric` is a `RuntimeError` (util.py 506-511);
`interp` says what a function computes and `None` is not callable. -/
def MetricAttr.call {φ ψ : Type} (interp : MetricFn φ → Option ψ) : MetricAttr φ → Res ψ
  | .notSet => .raise .runtimeError
  | .is f => match interp f with
    | some g => .ok g
    | none => .raise .typeError

/-- An argument that should be an integer. -/
inductive IntArg
  | int (i : Int)
  | other
  deriving DecidableEq

/-! ### `AZP` -/

/-- The attributes `n_regions`, `labels_` and `objective_func` of an `AZP` object (azp.py 42-56); `ω`
stands for the objective functions. -/
structure AzpAttrs (ω : Type) where
  nRegions : Option Int
  labels : Option (List Int)
  objective : Option ω

/-- After `AZP.__init__` (azp.py 42-56). -/
def AzpAttrs.fresh {ω : Type} : AzpAttrs ω := ⟨none, none, none⟩

/-- `AZP.fit_from_scipy_sparse_matrix` (azp.py 86-110); `w` is the objective function as an object. -/
def azpFitPy {ω : Type} (w : ω) {n q : Nat} {ρ : Type} (o : MstOrder) (expf : ℚ → ℚ)
    (obj : Objective ρ) (fuel : Nat) (adj : Adj n) (attr : Fin n → ρ) (nRegions : Int)
    (initialLabels : Option (Labels n)) (strat : Strat n q) (rng : Rng) :
    Py (AzpAttrs ω) (Strat n q × Rng) := do
  Py.set fun s => { s with objective := some w }
  let (labels, strat, rng) ← Py.lift (azpFit o expf obj fuel adj attr nRegions initialLabels strat rng)
  Py.set fun s => { s with nRegions := some nRegions }
  Py.set fun s => { s with labels := some (arrayList labels) }
  pure (strat, rng)

/-! ### `AZPSimulatedAnnealing` -/

/-- The attributes of an `AZPSimulatedAnnealing` object: `labels_` does not exist before the first call
of `fit` (`none`) and may be assigned `None` (`some none`). -/
structure SaAttrs where
  nRegions : Option Int
  labels : Option (Option (List Int))

/-- After `AZPSimulatedAnnealing.__init__` (azp.py 436-458). -/
def SaAttrs.fresh : SaAttrs := ⟨none, none⟩

/-- Reading `labels_`. -/
def SaAttrs.getLabels (s : SaAttrs) : Res (Option (List Int)) :=
  match s.labels with
  | none => .raise .attributeError
  | some l => .ok l

/-- `AZPSimulatedAnnealing.fit_from_scipy_sparse_matrix` (azp.py 615-662). -/
def saFitPy {n : Nat} {ρ : Type} (o : MstOrder) (expf : ℚ → ℚ) (obj : Objective ρ)
    (outerFuel innerFuel azpFuel : Nat) (P : SaParams) (self : SaObj) (adj : Adj n)
    (attr : Fin n → ρ) (nRegions : Int) (initialLabels : Option (Labels n)) (cooling : ℚ)
    (rng : Rng) : Py SaAttrs (SaObj × Rng) := do
  let (labels, self, _, rng) ← Py.lift (saFit o expf obj outerFuel innerFuel azpFuel P self adj attr
    nRegions initialLabels cooling rng)
  Py.set fun s => { s with labels := some (labels.map fun l => arrayList l) }
  pure (self, rng)

/-! ### `PRegionsExact` -/

/-- The attributes of a `PRegionsExact` object (p_regions/exact.py 38-43). -/
structure ExactAttrs (φ : Type) where
  nRegions : Option Int
  labels : Option (List Int)
  method : Option String
  solver : Option String
  metric : MetricAttr φ
  deriving DecidableEq

/-- After `PRegionsExact.__init__` (p_regions/exact.py 38-43). -/
def ExactAttrs.fresh {φ : Type} : ExactAttrs φ := ⟨none, none, none, none, .notSet⟩

/-- The checks of the `n_regions` argument (p_regions/exact.py 86-91). -/
def checkNRegions (n : Nat) : IntArg → Res Int
  | .other => .raise (.valueError "The n_regions argument must be a positive integer.")
  | .int p =>
    if p ≤ 0 then .raise (.valueError "The n_regions argument must be a positive integer.")
    else if (n : Int) < p then
      .raise (.valueError "The number of regions must be less than the number of areas.")
    else .ok p

/-- A string argument that has been checked; `.lower()` on anything else raises `AttributeError`. -/
def PyStr.get : PyStr → Res String
  | .str s => .ok s
  | .other => .raise .attributeError

/-- A distance function called on the pairs of areas: `None` is not callable, which shows if there is a
pair at all (p_regions/exact.py 321-326, max_p_regions/exact.py 89-91). -/
def callable {φ : Type} (interp : MetricFn φ → Option Metric) (n : Nat) (f : MetricFn φ) : Res Metric :=
  match interp f with
  | some g => .ok g
  | none => if 2 ≤ n then .raise .typeError else .ok fun _ _ _ => 0

/-- `PRegionsExact.fit_from_scipy_sparse_matrix` (p_regions/exact.py 86-110).  `solvers` are the solvers
behind the classes of pulp; `exactFit` is the part after the checks (its own checks of `n_regions`
succeed here). -/
def exactFitPy {φ : Type} (interp : MetricFn φ → Option Metric) {n m : Nat}
    (solvers : SolverClass → Solvers n) (adj : Adj n) (attr : Fin n → Row m) (nRegions : IntArg)
    (method solver : PyStr) (metric : MetricArg φ) (r : Rng) : Py (ExactAttrs φ) Unit := do
  let p ← Py.lift (checkNRegions n nRegions)
  Py.lift (checkMethod method)
  Py.lift (checkSolver solver)
  let f ← Py.lift (getMetricFunction metric)
  let methodName ← Py.lift method.get
  let solverName ← Py.lift solver.get
  let opt ← Py.lift (getMethod methodName)
  let g ← Py.lift (callable interp n f)
  let c ← Py.lift (getSolverInstance solverName)
  let result ← Py.lift (exactFit adj attr p opt (solvers c) g r)
  Py.set fun s => { s with labels := some result }
  Py.set fun s => { s with nRegions := some p }
  Py.set fun s => { s with method := some methodName }
  Py.set fun s => { s with metric := .is f }
  Py.set fun s => { s with solver := some solverName }

/-! ### `MaxPRegionsExact` -/

/-- The attributes of a `MaxPRegionsExact` object (max_p_regions/exact.py 28-31); `solver` holds an
instance of a class of pulp. -/
structure MaxPExactAttrs (φ : Type) where
  labels : Option (List Int)
  solver : Option SolverClass
  metric : MetricAttr φ
  deriving DecidableEq

/-- After `MaxPRegionsExact.__init__` (max_p_regions/exact.py 28-31). -/
def MaxPExactAttrs.fresh {φ : Type} : MaxPExactAttrs φ := ⟨none, none, .notSet⟩

/-- `MaxPRegionsExact.fit_from_scipy_sparse_matrix` (max_p_regions/exact.py 75-165): the metric is
assigned before the solver is checked. -/
def maxpExactFitPy {φ : Type} (interp : MetricFn φ → Option Metric) {n m : Nat}
    (solvers : SolverClass → Solver (OrderVar n)) (adj : Adj n) (attr : Fin n → Row m)
    (quota : Quota n) (solver : PyStr) (metric : MetricArg φ) : Py (MaxPExactAttrs φ) Unit := do
  let f ← Py.lift (getMetricFunction metric)
  Py.set fun s => { s with metric := .is f }
  Py.lift (checkSolver solver)
  let g ← Py.lift (callable interp n f)
  let prob ← Py.lift (maxpLp adj (fun i j => g m (attr i) (attr j)) quota)
  let solverName ← Py.lift solver.get
  let c ← Py.lift (getSolverInstance solverName)
  Py.set fun s => { s with labels := some (arrayList (maxpDecode (solvers c prob))) }
  Py.set fun s => { s with solver := some c }

/-! ### `MaxPRegionsHeu` -/

/-- The attributes of a `MaxPRegionsHeu` object (heuristics.py 32-37); `μ` stands for the metrics. -/
structure MaxPAttrs (μ : Type) where
  nRegions : Option Int
  labels : Option (List Int)
  metric : Option μ                           -- `none`: `raise_distance_metric_not_set`

/-- After `MaxPRegionsHeu.__init__` (heuristics.py 32-37). -/
def MaxPAttrs.fresh {μ : Type} : MaxPAttrs μ := ⟨none, none, none⟩

section
variable {ς μ : Type} {n q : Nat} {ρ : Type} (ls : LocalSearch ς n q) (obj : Objective ρ)
  (attr : Fin n → ρ) (maxP : Nat)

/-- The loop of the local search phase with its assignment to `labels_` at the end of every round
(heuristics.py 103-123). -/
def roundsPy (spat : Fin n → Fin q → ℚ) (thr : Fin q → ℚ) (feasible : List (List (List (Fin n)))) :
    List (List (List (Fin n))) → Option (Labels n × ℚ) → ς → Rng → Py (MaxPAttrs μ) (ς × Rng)
  | [], _, st, r => pure (st, r)
  | _ :: rounds, best, st, r => do
    let (best, st, r) ← Py.lift (searchInner ls obj attr maxP feasible best (ls.wrap spat thr st) r)
    Py.set fun s => { s with labels := best.map fun b => arrayList b.1 }
    roundsPy spat thr feasible rounds best st r

end

/-- `MaxPRegionsHeu.fit_from_scipy_sparse_matrix` (heuristics.py 77-123); `mu` is
`objective_func.metric`. -/
def maxpFitPy {ς μ : Type} (mu : μ) {n q : Nat} {ρ : Type} (ls : LocalSearch ς n q)
    (metric : ρ → ρ → ℚ) (obj : Objective ρ) (adj : Adj n) (attr : Fin n → ρ)
    (spat : Fin n → Fin q → ℚ) (thr : Fin q → ℚ) (maxIt : Nat) (st : ς) (r : Rng) :
    Py (MaxPAttrs μ) (ς × Rng) := do
  Py.set fun s => { s with metric := some mu }
  let (maxP, kept, r) ← Py.lift (construct metric adj attr spat thr maxIt 0 [] r)
  let (feasible, r) ← Py.lift (assignAll metric adj attr kept r)
  roundsPy ls obj attr maxP spat thr feasible feasible none st r

end Region
