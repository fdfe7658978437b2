import Verif.Model.Azp
/-
Model of `/repo/region/p_regions/azp.py`, class `AZPSimulatedAnnealing` (lines 397-705).
-/
namespace Region

/-- The constructor arguments of `AZPSimulatedAnnealing` (azp.py 408-458) that `fit` uses.
`maxIt = none` is `float("inf")`. -/
structure SaParams where
  initTemperature : ℚ
  maxIt : Option Int
  saMovesTerm : PyNum
  nonmovingSteps : Int
  repsBeforeTermination : Int

/-- `AZPSimulatedAnnealing.__init__` (azp.py 435-441): an initial temperature is required. -/
def newSaParams (initTemperature : Option ℚ) (maxIt : Option Int) (saMovesTerm : PyNum)
    (nonmovingSteps reps : Int) : Res SaParams :=
  match initTemperature with
  | some t => .ok ⟨t, maxIt, saMovesTerm, nonmovingSteps, reps⟩
  | none => .raise .notImplementedError

/-- The attributes of an `AZPSimulatedAnnealing` object that survive a call of `fit`: the list of
visited labellings (as tuples) and the flag `move_made` (azp.py 447, 450). -/
structure SaObj where
  visited : List (List Int)
  moveMade : Bool
  deriving DecidableEq

/-- A freshly constructed object. -/
def SaObj.fresh : SaObj := ⟨[], false⟩

namespace Strat

/-- `reset()` (azp_util.py 142-143) together with `self.sa_moves_term_reached = False`
(azp.py 636-637). -/
def saReset {n q : Nat} : Strat n q → Strat n q
  | sa t term _ v _ mm => sa t term 0 v false mm
  | s => s

/-- `update_temperature` (azp_util.py 139-140). -/
def saSetTemperature {n q : Nat} (t' : ℚ) : Strat n q → Strat n q
  | sa _ term m v al mm => sa t' term m v al mm
  | s => s

/-- The flag `sa_moves_term_reached` of the owner (set by `sa_moves_alert`, azp.py 701-702). -/
def saAlert {n q : Nat} : Strat n q → Bool
  | sa _ _ _ _ al _ => al
  | _ => false

/-- The flag `move_made` of the owner (set by `move_made_alert`, azp.py 704-705). -/
def saMoveMade {n q : Nat} : Strat n q → Bool
  | sa _ _ _ _ _ mm => mm
  | _ => false

/-- `self.move_made = …` on the owner. -/
def saSetMoveMade {n q : Nat} (b : Bool) : Strat n q → Strat n q
  | sa t term m v al _ => sa t term m v al b
  | s => s

/-- The temperature of an SA strategy. -/
def saTemperature {n q : Nat} : Strat n q → ℚ
  | sa t _ _ _ _ _ => t
  | _ => 0

end Strat

/-- `it < self.maxit` (azp.py 639). -/
def belowMax (it : Nat) : Option Int → Bool
  | none => true
  | some m => decide ((it : Int) < m)

section
variable {n : Nat} (azp : Option (Labels n) → Strat n 0 → Rng → Res (Labels n × Strat n 0 × Rng))

/-- Step b (azp.py 639-650); `azp` is `self.azp.fit_from_scipy_sparse_matrix` with the arguments that
stay the same.  The first argument is the number of iterations observed. -/
def saInner (maxIt : Option Int) : Nat → Nat → Option (Labels n) → Strat n 0 → Rng →
    Res (Option (Labels n) × Strat n 0 × Rng)
  | fuel, it, cur, st, rng =>
    if belowMax it maxIt && !st.saAlert then
      match fuel with
      | 0 => .timeout
      | fuel + 1 => do
        let (new, st, rng) ← azp cur st rng
        match cur with
        | some old =>
          if arrayList old = arrayList new then .ok (some new, st, rng)
          else saInner maxIt fuel (it + 1) (some new) st rng
        | none => saInner maxIt fuel (it + 1) (some new) st rng
    else .ok (cur, st, rng)

/-- Step d (azp.py 634-661).  `t` is the local temperature, `nm` the counter `nonmoving_steps`. -/
def saOuter (P : SaParams) (cooling : ℚ) (innerFuel : Nat) : Nat → ℚ → Nat → Option (Labels n) →
    List (List Int) → Strat n 0 → Rng →
    Res (Option (Labels n) × List (List Int) × Strat n 0 × Rng)
  | fuel, t, nm, cur, visited, st, rng =>
    if (nm : Int) < P.nonmovingSteps then
      match fuel with
      | 0 => .timeout
      | fuel + 1 => do
        let (cur, st, rng) ← saInner azp P.maxIt innerFuel 0 cur st.saReset rng
        match cur with
        | none => .raise .typeError        -- `tuple(None)` (azp.py 652)
        | some L =>
          if P.repsBeforeTermination ≤ (visited.count (arrayList L) : Int) then
            .ok (some L, visited, st, rng)
          else
            let t := t * cooling
            let st := st.saSetTemperature t
            if st.saMoveMade then
              saOuter P cooling innerFuel fuel t nm (some L) (visited ++ [arrayList L])
                (st.saSetMoveMade false) rng
            else
              saOuter P cooling innerFuel fuel t (nm + 1) (some L) (visited ++ [arrayList L]) st rng
    else .ok (cur, visited, st, rng)

end

/-- `AZPSimulatedAnnealing.fit_from_scipy_sparse_matrix` (azp.py 615-662): what is stored in
`labels_` (`none` is Python's `None`) and the attributes of the object afterwards.  `fuels` are the
numbers of iterations observed of the outer loop, the inner loop and the loops of AZP. -/
def saFit {n : Nat} {ρ : Type} (o : MstOrder) (expf : ℚ → ℚ) (obj : Objective ρ)
    (outerFuel innerFuel azpFuel : Nat) (P : SaParams) (self : SaObj) (adj : Adj n)
    (attr : Fin n → ρ) (nRegions : Int) (initialLabels : Option (Labels n)) (cooling : ℚ)
    (rng : Rng) : Res (Option (Labels n) × SaObj × Strat n 0 × Rng) :=
  if ¬ (0 < cooling ∧ cooling < 1) then
    .raise (.valueError
      "The cooling_factor argument must be greater than 0 and less than 1")
  else do
    let st ← newSaStrategy (n := n) (q := 0) P.initTemperature P.saMovesTerm
    let (L, visited, st, rng) ← saOuter
      (fun cur st rng => azpFit o expf obj azpFuel adj attr nRegions cur st rng)
      P cooling innerFuel outerFuel P.initTemperature 0 initialLabels self.visited
      (st.saSetMoveMade self.moveMade) rng
    .ok (L, ⟨visited, st.saMoveMade⟩, st, rng)

end Region
