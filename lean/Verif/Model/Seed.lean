import Verif.Model.Construct
import Verif.Model.MaxPHeu
/-
Model of the calls of `random.seed` in `/repo/region/p_regions/azp.py` and
`/repo/region/max_p_regions/heuristics.py`.

The module `random` has one generator for the whole process.  `random.seed(a)` with `a` not `None` puts
it into a state determined by `a`; the tape drawn from there is `mt a` for an arbitrary function `mt`
(the Mersenne twister).  `random.seed(None)` takes the state from the operating system; the tapes drawn
after the next calls of this kind are given by `entropy`.
-/
namespace Region

/-- The random numbers a process is going to see: `tape` is what the generator yields next, `entropy i`
what it will yield after the `i`-th call of `random.seed(None)` from now on. -/
structure Process where
  tape : Rng
  entropy : Nat → Rng

/-- `random.seed(random_state)`. -/
def Process.seed {S : Type} (mt : S → Rng) : Option S → Process → Process
  | some a, w => { w with tape := mt a }
  | none, w => ⟨w.entropy 0, fun i => w.entropy (i + 1)⟩

section
variable {S : Type} (mt : S → Rng)

/-- `AZP.__init__` (azp.py 31-56): the generator is seeded before the argument is looked at. -/
def newAzp {n q : Nat} (arg : StrategyArg (Strat n q)) (rs : Option S) (w : Process) :
    Res (Strat n q) × Process :=
  (newAzpStrategy arg, w.seed mt rs)

/-- `AZPBasicTabu.__init__` (azp.py 741-763): `deque([], tabu_length)` may raise before
`AZP.__init__` seeds the generator. -/
def newBasicTabu (len : Option Int) (rs : Option S) (w : Process) : Res (Option Nat) × Process :=
  match newTabuLength len with
  | .ok l => (.ok l, w.seed mt rs)
  | .raise e => (.raise e, w)
  | .timeout => (.timeout, w)

/-- `AZPReactiveTabu.__init__` (azp.py 871-905): `AZP.__init__` seeds the generator before
`max_iterations` is looked at. -/
def newReactiveTabu (maxIt : Int) (rs : Option S) (w : Process) : Res Nat × Process :=
  (newReactMaxIt maxIt, w.seed mt rs)

/-- `MaxPRegionsHeu.__init__` (heuristics.py 17-37). -/
def newMaxP (rs : Option S) (w : Process) : Process := w.seed mt rs

end

/-- A fit drawing from the generator of the process. -/
def Process.run {α σ : Type} (f : Rng → Res (α × σ × Rng)) (w : Process) : Res (α × σ × Process) := do
  let (a, st, r) ← f w.tape
  .ok (a, st, { w with tape := r })

/-- `AZPSimulatedAnnealing.fit_from_scipy_sparse_matrix` (azp.py 615-662): every call makes a new `AZP`
(626-628) and so seeds the generator with the `random_state` stored in the object (456). -/
def saFitSeeding {S : Type} (mt : S → Rng) (rs : Option S) {n : Nat} {ρ : Type} (o : MstOrder)
    (expf : ℚ → ℚ) (obj : Objective ρ) (outerFuel innerFuel azpFuel : Nat) (P : SaParams) (self : SaObj)
    (adj : Adj n) (attr : Fin n → ρ) (nRegions : Int) (initialLabels : Option (Labels n)) (cooling : ℚ)
    (w : Process) : Res (Option (Labels n) × SaObj × Process) :=
  (w.seed mt rs).run fun r => do
    let (L, self, _, r) ← saFit o expf obj outerFuel innerFuel azpFuel P self adj attr nRegions
      initialLabels cooling r
    .ok (L, self, r)

/-- `AZPSimulatedAnnealing(…, random_state)` as local search of `MaxPRegionsHeu`; the state holds also
the entropy of the process. -/
def saSearchSeeding {S : Type} (mt : S → Rng) (rs : Option S) {n q : Nat} {ρ : Type} (o : MstOrder)
    (expf : ℚ → ℚ) (obj : Objective ρ) (outerFuel innerFuel azpFuel : Nat) (P : SaParams) (adj : Adj n)
    (attr : Fin n → ρ) : LocalSearch (SaObj × (Nat → Rng)) n q where
  wrap _ _ self := self
  fit p init self r := do
    let (L, obj', w) ← saFitSeeding mt rs o expf obj outerFuel innerFuel azpFuel P self.1 adj attr p
      (some init) (85 / 100) ⟨r, self.2⟩
    .ok (L, (obj', w.entropy), w.tape)

/-- `MaxPRegionsHeu(AZPSimulatedAnnealing(…, random_state)).fit(…)` (heuristics.py 39-123). -/
def maxpFitSa {S : Type} (mt : S → Rng) (rs : Option S) {n q : Nat} {ρ : Type} (o : MstOrder)
    (expf : ℚ → ℚ) (metric : ρ → ρ → ℚ) (obj : Objective ρ) (outerFuel innerFuel azpFuel : Nat)
    (P : SaParams) (adj : Adj n) (attr : Fin n → ρ) (spat : Fin n → Fin q → ℚ) (thr : Fin q → ℚ)
    (maxIt : Nat) (self : SaObj) (w : Process) : Res (Nat × Option (Labels n) × SaObj × Process) := do
  let (maxP, L, st, r) ← maxpFit
    (saSearchSeeding mt rs o expf obj outerFuel innerFuel azpFuel P adj attr) metric obj adj attr spat thr
    maxIt (self, w.entropy) w.tape
  .ok (maxP, L, st.1, ⟨r, st.2⟩)

/-- `MaxPRegionsHeu().fit(…)` without a local search (heuristics.py 39-123): if there is any partition
to improve, a new `AZP()` is made (line 107), which seeds the generator with `None`. -/
def maxpFitDefault {n q : Nat} {ρ : Type} (o : MstOrder) (expf : ℚ → ℚ) (metric : ρ → ρ → ℚ)
    (obj : Objective ρ) (fuel : Nat) (adj : Adj n) (attr : Fin n → ρ) (spat : Fin n → Fin q → ℚ)
    (thr : Fin q → ℚ) (maxIt : Nat) (w : Process) : Res (Nat × Option (Labels n) × Process) := do
  let (maxP, kept, r) ← construct metric adj attr spat thr maxIt 0 [] w.tape
  let (feasible, r) ← assignAll metric adj attr kept r
  let w := { w with tape := r }
  let w := if feasible = [] then w else w.seed (S := Empty) Empty.elim none
  let (best, _, r) ← searchOuter (azpSearch o expf obj fuel adj attr) obj attr maxP spat thr feasible
    feasible none (.azp 0) w.tape
  .ok (maxP, best.map Prod.fst, { w with tape := r })

end Region
