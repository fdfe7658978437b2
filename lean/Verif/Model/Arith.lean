import Verif.Model.AzpSa
/-
The allow-move strategies of `/repo/region/p_regions/azp_util.py` computing with machine numbers.

`Verif/Model/AzpUtil.lean` computes with exact rational numbers.  Here every operation the strategy
objects themselves carry out on numbers is a parameter, so that it may round in any way.  (What the
objective function computes is a parameter anyway: `Objective` is arbitrary.)  Not covered: the
values `nan` and `inf`, which are no rational numbers.
-/
namespace Region

/-- The operations the strategy objects carry out on numbers. -/
structure Arith where
  /-- `self.objective_val += diff` (azp_util.py 66, 90, 102). -/
  add : ℚ → ℚ → ℚ
  /-- `sum(…)` over the areas of the donor region (azp_util.py 191). -/
  sum : List ℚ → ℚ
  /-- `… - self.spatially_extensive_attr[moving_area]` (azp_util.py 191). -/
  sub : ℚ → ℚ → ℚ
  /-- `math.exp(-diff / self.t)` (azp_util.py 95). -/
  prob : ℚ → ℚ → ℚ

/-- Exact arithmetic with an arbitrary function for `math.exp`. -/
def Arith.exact (expf : ℚ → ℚ) : Arith where
  add x y := x + y
  sum l := l.sum
  sub x y := x - y
  prob diff t := Strat.acceptProb expf diff t

namespace Strat

/-- `maxpBlocks` with the operations of `ar` (azp_util.py 186-203). -/
def maxpBlocksIn (ar : Arith) {k q : Nat} (sp : Fin k → Fin q → ℚ) (thr : Fin q → ℚ) (a : Fin k)
    (labels : Labels k) : Bool :=
  if (List.finRange q).any fun j => decide (sp a j ≠ 0) then
    !((List.finRange q).all fun j =>
      decide (thr j ≤ ar.sub (ar.sum ((whereEq labels (labels a)).map fun i => sp i j)) (sp a j)))
  else false

/-- `call` with the operations of `ar` (azp_util.py 62-70, 86-104, 185-204). -/
def callIn (ar : Arith) {n q : Nat} {ρ : Type} {k : Nat} (idx : Fin k → Fin n) (attr : Fin k → ρ)
    (obj : Objective ρ) :
    Strat n q → Fin k → Int → Labels k → Rng → Res (Bool × Strat n q × Rng)
  | azp v, a, region, labels, r =>
    match obj.update a region labels attr with
    | none => .raise (.valueError "Found array with 0 sample(s)")
    | some diff => if diff ≤ 0 then .ok (true, azp (ar.add v diff), r) else .ok (false, azp v, r)
  | sa t term m v al mm, a, region, labels, r =>
    match obj.update a region labels attr with
    | none => .raise (.valueError "Found array with 0 sample(s)")
    | some diff =>
      if diff ≤ 0 then .ok (true, sa t term m (ar.add v diff) al true, r)
      else
        match randomLt (ar.prob diff t) r with
        | (true, r) =>
          .ok (true, sa t term (m + 1) (ar.add v diff) (al || decide (m + 1 ≥ term)) true, r)
        | (false, r) => .ok (false, sa t term m v al mm, r)
  | maxp spat thr v inner, a, region, labels, r =>
    if maxpBlocksIn ar (fun i => spat (idx i)) thr a labels then
      .ok (false, maxp spat thr v inner, r)
    else
      match callIn ar idx attr obj inner a region labels r with
      | .ok (b, inner', r') => .ok (b, maxp spat thr v inner', r')
      | .raise e => .raise e
      | .timeout => .timeout

/-- The operations of a strategy object computing with `ar`. -/
def opsIn (ar : Arith) {n q : Nat} {ρ : Type} {k : Nat} (idx : Fin k → Fin n) (attr : Fin k → ρ)
    (obj : Objective ρ) : StratOps (Strat n q) k where
  call := callIn ar idx attr obj
  objVal := objVal

/-- With exact arithmetic this is the strategy of `Verif/Model/AzpUtil.lean`. -/
theorem callIn_exact {n q : Nat} {ρ : Type} (expf : ℚ → ℚ) {k : Nat} (idx : Fin k → Fin n)
    (attr : Fin k → ρ) (obj : Objective ρ) (st : Strat n q) :
    callIn (Arith.exact expf) idx attr obj st = call expf idx attr obj st := by
  funext a r labels rng
  induction st generalizing rng with
  | azp v => rfl
  | sa => rfl
  | maxp spat thr v inner ih =>
    unfold callIn call
    rw [ih]
    rfl

end Strat

/-- `AZP(allow_move_strategy).fit(…)` (azp.py 58-110) with a strategy computing with `ar`. -/
def azpFitIn (ar : Arith) {n q : Nat} {ρ : Type} (o : MstOrder) (obj : Objective ρ) (fuel : Nat)
    (adj : Adj n) (attr : Fin n → ρ) (nRegions : Int) (initialLabels : Option (Labels n))
    (strat : Strat n q) (rng : Rng) : Res (Labels n × Strat n q × Rng) :=
  fitWith o adj attr (fun idx a init at' st rng =>
    azpComponent (Strat.opsIn ar (fun i => idx.get i) at' obj) a fuel init
      (st.start (obj.call init at')) rng) nRegions initialLabels strat rng

/-- With exact arithmetic this is `azpFit`. -/
theorem azpFitIn_exact {n q : Nat} {ρ : Type} (o : MstOrder) (expf : ℚ → ℚ) (obj : Objective ρ)
    (fuel : Nat) (adj : Adj n) (attr : Fin n → ρ) (p : Int) (initial : Option (Labels n))
    (st : Strat n q) (rng : Rng) :
    azpFitIn (Arith.exact expf) o obj fuel adj attr p initial st rng =
      azpFit o expf obj fuel adj attr p initial st rng := by
  have h : ∀ (idx : List (Fin n)) (at' : Fin idx.length → ρ),
      Strat.opsIn (q := q) (Arith.exact expf) (fun i => idx.get i) at' obj =
        Strat.ops expf (fun i => idx.get i) at' obj := by
    intro idx at'
    unfold Strat.opsIn Strat.ops
    congr 1
    funext st
    exact Strat.callIn_exact expf _ at' obj st
  unfold azpFitIn azpFit
  simp only [h]
  rfl

/-- `AZPSimulatedAnnealing.fit_from_scipy_sparse_matrix` (azp.py 615-662) with a strategy computing
with `ar`.  The temperature itself is not rounded: after `k` rounds it is `t * cooling^k`, and as
`ar.prob` may be any function of it, it may be one that rounds its argument first. -/
def saFitIn (ar : Arith) {n : Nat} {ρ : Type} (o : MstOrder) (obj : Objective ρ)
    (outerFuel innerFuel azpFuel : Nat) (P : SaParams) (self : SaObj) (adj : Adj n)
    (attr : Fin n → ρ) (nRegions : Int) (initialLabels : Option (Labels n)) (cooling : ℚ)
    (rng : Rng) : Res (Option (Labels n) × SaObj × Strat n 0 × Rng) :=
  if ¬ (0 < cooling ∧ cooling < 1) then
    .raise (.valueError
      "The cooling_factor argument must be greater than 0 and less than 1")
  else do
    let st ← newSaStrategy (n := n) (q := 0) P.initTemperature P.saMovesTerm
    let (L, visited, st, rng) ← saOuter
      (fun cur st rng => azpFitIn ar o obj azpFuel adj attr nRegions cur st rng)
      P cooling innerFuel outerFuel P.initTemperature 0 initialLabels self.visited
      (st.saSetMoveMade self.moveMade) rng
    .ok (L, ⟨visited, st.saMoveMade⟩, st, rng)

/-- With exact arithmetic this is `saFit`. -/
theorem saFitIn_exact {n : Nat} {ρ : Type} (o : MstOrder) (expf : ℚ → ℚ) (obj : Objective ρ)
    (f1 f2 f3 : Nat) (P : SaParams) (self : SaObj) (adj : Adj n) (attr : Fin n → ρ) (p : Int)
    (initial : Option (Labels n)) (cooling : ℚ) (rng : Rng) :
    saFitIn (Arith.exact expf) o obj f1 f2 f3 P self adj attr p initial cooling rng =
      saFit o expf obj f1 f2 f3 P self adj attr p initial cooling rng := by
  unfold saFitIn saFit
  simp only [azpFitIn_exact]

end Region
