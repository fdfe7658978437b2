import Verif.Model.AzpUtil
/-
Model of `/repo/region/p_regions/azp.py`, class `AZP` (lines 21-394).
-/
namespace Region

/-- The local variables of `_azp_connected_component` together with the state of the strategy
object and of the random generator.  `nbrs` is the dict `region_neighbors` (a missing key is
`none`, a set of areas is its membership test). -/
structure AzpState (σ : Type) (k : Nat) where
  labels : Labels k
  nbrs : Int → Option (Fin k → Bool)
  strat : σ
  rng : Rng

/-- `region_neighbors[region]` (azp.py 347): `KeyError` for a missing key. -/
def getNbrs {k : Nat} (nbrs : Int → Option (Fin k → Bool)) (region : Int) : Res (Fin k → Bool) :=
  match nbrs region with
  | none => .raise .keyError
  | some s => .ok s

/-- In-place modification of `region_neighbors[region]`. -/
def modNbrs {k : Nat} (nbrs : Int → Option (Fin k → Bool)) (region : Int)
    (f : (Fin k → Bool) → Fin k → Bool) : Res (Int → Option (Fin k → Bool)) :=
  match nbrs region with
  | none => .raise .keyError
  | some s => .ok fun x => if x = region then some (f s) else nbrs x

/-- The initial `region_neighbors` (azp.py 322-329): for every region the areas outside that some
member lists as a neighbor. -/
def initNbrs {k : Nat} (adj : Adj k) (labels : Labels k) (regions : List Int) :
    Int → Option (Fin k → Bool) :=
  fun region =>
    if regions.contains region then
      some fun v => (whereEq labels region).any (fun a => (neighbors adj a).contains v)
        && !(whereEq labels region).contains v
    else none

/-- Step 4 (azp.py 346-356): the bordering areas whose region stays connected without them and has
another area. -/
def candidates {k : Nat} (adj : Adj k) (labels : Labels k) (border : Fin k → Bool) :
    List (Fin k) :=
  ((List.finRange k).filter border).filter fun neigh =>
    isConnected (subAdjWo adj (whereEq labels (labels neigh)) [neigh]) &&
      decide (count (arrayList labels) (labels neigh) > 1)

/-- The body of the accepted move (azp.py 366-388). -/
def applyMove {σ : Type} {k : Nat} (adj : Adj k) (recipient : Int) (cand : Fin k)
    (s : AzpState σ k) : Res (AzpState σ k) := do
  let donor := s.labels cand
  let labels := makeMove cand recipient s.labels
  -- region_neighbors[donor].add(cand)
  let nbrs ← modNbrs s.nbrs donor fun t v => t v || decide (v = cand)
  -- region_neighbors[recipient].discard(cand)
  let nbrs ← modNbrs nbrs recipient fun t v => t v && !decide (v = cand)
  let neighsOfCand := neighbors adj cand
  let recipientAreas := whereEq labels recipient
  -- region_neighbors[recipient].update(neighs_of_cand); .difference_update(recipient areas)
  let nbrs ← modNbrs nbrs recipient fun t v =>
    (t v || neighsOfCand.contains v) && !recipientAreas.contains v
  let donorAreas := whereEq labels donor
  let notAnymore := neighsOfCand.filter fun area =>
    !(neighbors adj area).any fun a => donorAreas.contains a
  let nbrs ← modNbrs nbrs donor fun t v => t v && !notAnymore.contains v
  .ok { s with labels := labels, nbrs := nbrs }

/-- Step 5 (azp.py 363-391), the loop over the candidates; the flag says whether a move was made
(`break`) or the candidates were exhausted (`else: break`).  The first argument is the number of
iterations observed; it is called with the number of candidates. -/
def tryCandidates {σ : Type} {k : Nat} (ops : StratOps σ k) (adj : Adj k) (recipient : Int) :
    Nat → List (Fin k) → AzpState σ k → Res (Bool × AzpState σ k)
  | _, [], s => .ok (false, s)
  | 0, _ :: _, _ => .timeout
  | fuel + 1, c :: cs, s => do
    let (cand, rest, rng) ← popRandomlyFrom (c :: cs) s.rng
    let (allowed, strat, rng) ← ops.call s.strat cand recipient s.labels rng
    let s := { s with strat := strat, rng := rng }
    if allowed then do
      let s ← applyMove adj recipient cand s
      .ok (true, s)
    else tryCandidates ops adj recipient fuel rest s

/-- The `while True` loop for one recipient (azp.py 341-391). -/
def growRegion {σ : Type} {k : Nat} (ops : StratOps σ k) (adj : Adj k) (recipient : Int) :
    Nat → AzpState σ k → Res (AzpState σ k)
  | 0, _ => .timeout
  | fuel + 1, s => do
    let border ← getNbrs s.nbrs recipient
    let cands := candidates adj s.labels border
    let (moved, s) ← tryCandidates ops adj recipient cands.length cands s
    if moved then growRegion ops adj recipient fuel s else .ok s

/-- The `while distinct_regions` loop (azp.py 338-391).  The first argument is the number of
iterations observed; it is called with the number of regions. -/
def passRegions {σ : Type} {k : Nat} (ops : StratOps σ k) (adj : Adj k) (fuel : Nat) :
    Nat → List Int → AzpState σ k → Res (AzpState σ k)
  | _, [], s => .ok s
  | 0, _ :: _, _ => .timeout
  | m + 1, x :: xs, s => do
    let (recipient, rest, rng) ← popRandomlyFrom (x :: xs) s.rng
    let s ← growRegion ops adj recipient fuel { s with rng := rng }
    passRegions ops adj fuel m rest s

/-- `obj_val_end < obj_val_start` (azp.py 332); `none` is `float("inf")`. -/
def improving (start : Option ℚ) (stop : ℚ) : Bool :=
  match start with
  | none => true
  | some b => decide (stop < b)

/-- The outer loop (azp.py 332-393). -/
def azpOuter {σ : Type} {k : Nat} (ops : StratOps σ k) (adj : Adj k) (regions : List Int)
    (fuel : Nat) : Nat → Option ℚ → ℚ → AzpState σ k → Res (AzpState σ k)
  | m, start, stop, s =>
    if improving start stop then
      match m with
      | 0 => .timeout
      | m + 1 => do
        let s ← passRegions ops adj fuel regions.length regions s
        azpOuter ops adj regions fuel m (some stop) (ops.objVal s.strat) s
    else .ok s

/-- `AZP._azp_connected_component` (azp.py 284-394) observed for `fuel` iterations of each loop. -/
def azpComponent {σ : Type} {k : Nat} (ops : StratOps σ k) (adj : Adj k) (fuel : Nat)
    (init : Labels k) (strat : σ) (rng : Rng) : Res (Labels k × σ × Rng) :=
  let regions := uniqueSorted (arrayList init)
  if regions.length = 1 then .ok (init, strat, rng)
  else if regions = [] then
    .raise .unboundLocalError     -- `del neighs` (azp.py 329) without any loop iteration
  else do
    let s ← azpOuter ops adj regions fuel fuel none (ops.objVal strat)
      { labels := init, nbrs := initNbrs adj init regions, strat := strat, rng := rng }
    .ok (s.labels, s.strat, s.rng)

/-- What `fit_from_scipy_sparse_matrix` does with one yielded array (azp.py 97-107).  `comp` is the
(possibly overridden) method `_azp_connected_component` preceded by `start_new_component`. -/
def fitStep {σ : Type} {n : Nat} {ρ : Type} (adj : Adj n) (attr : Fin n → ρ)
    (comp : (idx : List (Fin n)) → Adj idx.length → Labels idx.length → (Fin idx.length → ρ) →
      σ → Rng → Res (Labels idx.length × σ × Rng))
    (y : Labels n) (labels : Labels n) (strat : σ) (rng : Rng) : Res (Labels n × σ × Rng) := do
  let idx := (List.finRange n).filter fun i => decide (y i ≠ -1)
  let (labelsComp, strat, rng) ← comp idx (subAdj adj idx) (fun i => y (idx.get i))
    (fun i => attr (idx.get i)) strat rng
  .ok (scatter idx labelsComp labels, strat, rng)

/-- The loop over the components (azp.py 97-107). -/
def fitLoop {σ : Type} {n : Nat} {ρ : Type} (adj : Adj n) (attr : Fin n → ρ)
    (comp : (idx : List (Fin n)) → Adj idx.length → Labels idx.length → (Fin idx.length → ρ) →
      σ → Rng → Res (Labels idx.length × σ × Rng)) :
    Gen n → Labels n → σ → Rng → Res (Labels n × σ × Rng)
  | [], labels, strat, rng => .ok (labels, strat, rng)
  | step :: steps, labels, strat, rng => do
    let (y, rng) ← step rng
    match y with
    | .dict => .raise .typeError   -- `labels_comp[comp_idx]` on a dict (azp.py 100)
    | .array y => do
      let (labels, strat, rng) ← fitStep adj attr comp y labels strat rng
      fitLoop adj attr comp steps labels strat rng

/-- `AZP.fit_from_scipy_sparse_matrix` (azp.py 58-110) for a component routine `comp`: the value
stored in `labels_`. -/
def fitWith {σ : Type} {n : Nat} {ρ : Type} (o : MstOrder) (adj : Adj n) (attr : Fin n → ρ)
    (comp : (idx : List (Fin n)) → Adj idx.length → Labels idx.length → (Fin idx.length → ρ) →
      σ → Rng → Res (Labels idx.length × σ × Rng))
    (nRegions : Int) (initialLabels : Option (Labels n)) (strat : σ) (rng : Rng) :
    Res (Labels n × σ × Rng) :=
  match initialLabels with
  | some init => do
    assertFeasible init adj (some nRegions)
    fitLoop adj attr comp ((separateComponents adj init).map fun y r => .ok (.array y, r))
      (fun _ => -1) strat rng
  | none => do
    let (gen, rng) ← generateInitialSol o adj nRegions rng
    fitLoop adj attr comp gen (fun _ => -1) strat rng

/-- `start_new_component` followed by `AZP._azp_connected_component` with one of the library's
strategies (azp.py 102-106). -/
def azpComp {n q : Nat} {ρ : Type} (expf : ℚ → ℚ) (obj : Objective ρ) (fuel : Nat)
    (idx : List (Fin n)) (adj : Adj idx.length) (init : Labels idx.length)
    (attr : Fin idx.length → ρ) (strat : Strat n q) (rng : Rng) :
    Res (Labels idx.length × Strat n q × Rng) :=
  azpComponent (Strat.ops expf (fun i => idx.get i) attr obj) adj fuel init
    (strat.start (obj.call init attr)) rng

/-- `AZP(allow_move_strategy).fit(adj, attr, n_regions, initial_labels, objective_func)`. -/
def azpFit {n q : Nat} {ρ : Type} (o : MstOrder) (expf : ℚ → ℚ) (obj : Objective ρ) (fuel : Nat)
    (adj : Adj n) (attr : Fin n → ρ) (nRegions : Int) (initialLabels : Option (Labels n))
    (strat : Strat n q) (rng : Rng) : Res (Labels n × Strat n q × Rng) :=
  fitWith o adj attr (azpComp expf obj fuel) nRegions initialLabels strat rng

end Region
