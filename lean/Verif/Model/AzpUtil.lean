import Verif.Model.Objective
/-
Model of `/repo/region/p_regions/azp_util.py`: the objects deciding whether a move is allowed.
-/
namespace Region

/-- What `_azp_connected_component` uses of an allow-move strategy while one component is being
clustered: the call and the attribute `objective_val`.  `σ` is the state of the object. -/
structure StratOps (σ : Type) (k : Nat) where
  call : σ → Fin k → Int → Labels k → Rng → Res (Bool × σ × Rng)
  objVal : σ → ℚ

/-- The strategy objects.

* `azp`: `AllowMoveAZP` with its `objective_val`.
* `sa`: `AllowMoveAZPSimulatedAnnealing` with temperature `t`, `sa_moves_term`, number of
  SA-moves `sa`, `objective_val`, and the two flags set by the observers registered in
  azp.py 623-624 (`sa_moves_term_reached`, `move_made`).
* `maxp`: `AllowMoveAZPMaxPRegions` with the spatially extensive attributes of all `n` areas (`q`
  columns), the threshold, its own `objective_val` and the decorated strategy. -/
inductive Strat (n q : Nat)
  | azp (objVal : ℚ)
  | sa (t : ℚ) (term : Nat) (saMoves : Nat) (objVal : ℚ) (alert moveMade : Bool)
  | maxp (spat : Fin n → Fin q → ℚ) (thr : Fin q → ℚ) (objVal : ℚ) (inner : Strat n q)

namespace Strat

/-- The attribute `objective_val` as found by normal attribute lookup (azp_util.py 33; an instance
attribute of the decorator hides the one of the decorated object). -/
def objVal {n q : Nat} : Strat n q → ℚ
  | azp v => v
  | sa _ _ _ v _ _ => v
  | maxp _ _ v _ => v

/-- `start_new_component` (azp_util.py 31-33 and 176-183); `v` is the value
`objective_func(initial_labels, attr)`.  The attributes `attr`, `objective_func` and
`spatially_extensive_attr` set here do not change while the component is clustered; the model
passes them to `call` instead of storing them. -/
def start {n q : Nat} (v : ℚ) : Strat n q → Strat n q
  | azp _ => azp v
  | sa t term m _ al mm => sa t term m v al mm
  | maxp spat thr _ inner => maxp spat thr v (start v inner)

/-- `random.random() < prob` (azp_util.py 96): a multiple of `2^-53` in `[0, 1)`. -/
def randomLt (prob : ℚ) (r : Rng) : Bool × Rng :=
  (decide (((r 0 % 2 ^ 53 : Nat) : ℚ) / 2 ^ 53 < prob), r.next)

/-- `math.exp(-diff / self.t)` (azp_util.py 95) for an arbitrary function `expf`.  `diff` is a
numpy array, so a temperature of 0 gives `exp(-inf) = 0` and not an exception. -/
def acceptProb (expf : ℚ → ℚ) (diff t : ℚ) : ℚ := if t = 0 then 0 else expf (-diff / t)

/-- The test made by `AllowMoveAZPMaxPRegions.__call__` (azp_util.py 186-203): `True` if the move is
refused.  `sp` are the spatially extensive attributes of the areas of the component.
`(sp_ext[moving_area]).any() > 0` says that some attribute of the area is not zero;
`(…).any() < 0` compares a bool with 0 and is never true, so the branch guarding the recipient
(lines 195-202) is dead. -/
def maxpBlocks {k q : Nat} (sp : Fin k → Fin q → ℚ) (thr : Fin q → ℚ) (a : Fin k)
    (labels : Labels k) : Bool :=
  if (List.finRange q).any fun j => decide (sp a j ≠ 0) then
    !((List.finRange q).all fun j =>
      decide (thr j ≤ ((whereEq labels (labels a)).map fun i => sp i j).sum - sp a j))
  else false

/-- `__call__` of the three strategies (azp_util.py 62-70, 86-104, 185-204).  `idx` are the areas
of the component. -/
def call {n q : Nat} {ρ : Type} (expf : ℚ → ℚ) {k : Nat} (idx : Fin k → Fin n) (attr : Fin k → ρ)
    (obj : Objective ρ) :
    Strat n q → Fin k → Int → Labels k → Rng → Res (Bool × Strat n q × Rng)
  | azp v, a, region, labels, r =>
    match obj.update a region labels attr with
    | none => .raise (.valueError "Found array with 0 sample(s)")
    | some diff => if diff ≤ 0 then .ok (true, azp (v + diff), r) else .ok (false, azp v, r)
  | sa t term m v al mm, a, region, labels, r =>
    match obj.update a region labels attr with
    | none => .raise (.valueError "Found array with 0 sample(s)")
    | some diff =>
      if diff ≤ 0 then .ok (true, sa t term m (v + diff) al true, r)
      else
        match randomLt (acceptProb expf diff t) r with
        | (true, r) =>
          .ok (true, sa t term (m + 1) (v + diff) (al || decide (m + 1 ≥ term)) true, r)
        | (false, r) => .ok (false, sa t term m v al mm, r)
  | maxp spat thr v inner, a, region, labels, r =>
    if maxpBlocks (fun i => spat (idx i)) thr a labels then .ok (false, maxp spat thr v inner, r)
    else
      match call expf idx attr obj inner a region labels r with
      | .ok (b, inner', r') => .ok (b, maxp spat thr v inner', r')
      | .raise e => .raise e
      | .timeout => .timeout

/-- The operations of a strategy object on one component. -/
def ops {n q : Nat} {ρ : Type} (expf : ℚ → ℚ) {k : Nat} (idx : Fin k → Fin n) (attr : Fin k → ρ)
    (obj : Objective ρ) : StratOps (Strat n q) k where
  call := call expf idx attr obj
  objVal := objVal

end Strat

/-- The value passed as `sa_moves_term`: an integer or something that is not integral (such as the
default `float("inf")`). -/
inductive PyNum
  | int (i : Int)
  | nonIntegral

/-- `AllowMoveAZPSimulatedAnnealing.__init__` (azp_util.py 74-84). -/
def newSaStrategy {n q : Nat} (initTemperature : ℚ) (term : PyNum) : Res (Strat n q) :=
  match term with
  | .int i =>
    if i < 1 then .raise (.valueError "The sa_moves_term argument must be a positive integer.")
    else .ok (.sa initTemperature i.toNat 0 0 false false)
  | .nonIntegral => .raise (.valueError "The sa_moves_term argument must be a positive integer.")

end Region
