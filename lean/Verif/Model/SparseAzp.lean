import Verif.Model.AzpSa
import Verif.Model.AzpTabu
import Verif.Model.Sparse
/-
The four regionalization classes of `/repo/region/p_regions/azp.py` on an adjacency matrix with stored
values (see `Verif/Model/Sparse.lean`).  The definitions repeat the ones of `Verif/Model/Azp.lean`,
`AzpTabu.lean` and `AzpSa.lean` with the functions of `Csr` where the matrix is used: `neighbors`,
`sub_adj_matrix` with `is_connected`, `assert_feasible`, `separate_components` and
`generate_initial_sol`.
-/
namespace Region.Csr

open Region

/-- `boolean_assert_feasible` (util.py 772-790). -/
def booleanAssertFeasible {n : Nat} (keep : Bool) (A : Csr n) (solution : Labels n)
    (nRegions : Option Int) : Res Bool :=
  let regions := uniqueSorted (arrayList solution)
  let resp := regions.map fun r => (A.sub keep (whereEq solution r)).isConnected
  match nRegions with
  | some p =>
    if (regions.length : Int) ≠ p then
      .raise (.valueError s!"The number of regions is {n} but should be {p}")
    else .ok (resp.all id)
  | none => .ok (resp.all id)

/-- The initial `region_neighbors` (azp.py 322-329): for every region the areas outside that some
member lists as a neighbor. -/
def initNbrs {k : Nat} (A : Csr k) (labels : Labels k) (regions : List Int) :
    Int → Option (Fin k → Bool) :=
  fun region =>
    if regions.contains region then
      some fun v => (whereEq labels region).any (fun a => (A.neighbors a).contains v)
        && !(whereEq labels region).contains v
    else none

/-- Step 4 (azp.py 346-356): the bordering areas whose region stays connected without them and has
another area. -/
def candidates {k : Nat} (keep : Bool) (A : Csr k) (labels : Labels k) (border : Fin k → Bool) :
    List (Fin k) :=
  ((List.finRange k).filter border).filter fun neigh =>
    (A.sub keep (dropNodes (whereEq labels (labels neigh)) [neigh])).isConnected &&
      decide (count (arrayList labels) (labels neigh) > 1)

/-- The body of the accepted move (azp.py 366-388). -/
def applyMove {σ : Type} {k : Nat} (A : Csr k) (recipient : Int) (cand : Fin k)
    (s : AzpState σ k) : Res (AzpState σ k) := do
  let donor := s.labels cand
  let labels := makeMove cand recipient s.labels
  -- region_neighbors[donor].add(cand)
  let nbrs ← modNbrs s.nbrs donor fun t v => t v || decide (v = cand)
  -- region_neighbors[recipient].discard(cand)
  let nbrs ← modNbrs nbrs recipient fun t v => t v && !decide (v = cand)
  let neighsOfCand := A.neighbors cand
  let recipientAreas := whereEq labels recipient
  -- region_neighbors[recipient].update(neighs_of_cand); .difference_update(recipient areas)
  let nbrs ← modNbrs nbrs recipient fun t v =>
    (t v || neighsOfCand.contains v) && !recipientAreas.contains v
  let donorAreas := whereEq labels donor
  let notAnymore := neighsOfCand.filter fun area =>
    !(A.neighbors area).any fun a => donorAreas.contains a
  let nbrs ← modNbrs nbrs donor fun t v => t v && !notAnymore.contains v
  .ok { s with labels := labels, nbrs := nbrs }

/-- Step 5 (azp.py 363-391), the loop over the candidates; the flag says whether a move was made
(`break`) or the candidates were exhausted (`else: break`).  The first argument is the number of
iterations observed; it is called with the number of candidates. -/
def tryCandidates {σ : Type} {k : Nat} (ops : StratOps σ k) (keep : Bool) (A : Csr k) (recipient : Int) :
    Nat → List (Fin k) → AzpState σ k → Res (Bool × AzpState σ k)
  | _, [], s => .ok (false, s)
  | 0, _ :: _, _ => .timeout
  | fuel + 1, c :: cs, s => do
    let (cand, rest, rng) ← popRandomlyFrom (c :: cs) s.rng
    let (allowed, strat, rng) ← ops.call s.strat cand recipient s.labels rng
    let s := { s with strat := strat, rng := rng }
    if allowed then do
      let s ← applyMove A recipient cand s
      .ok (true, s)
    else tryCandidates ops keep A recipient fuel rest s

/-- The `while True` loop for one recipient (azp.py 341-391). -/
def growRegion {σ : Type} {k : Nat} (ops : StratOps σ k) (keep : Bool) (A : Csr k) (recipient : Int) :
    Nat → AzpState σ k → Res (AzpState σ k)
  | 0, _ => .timeout
  | fuel + 1, s => do
    let border ← getNbrs s.nbrs recipient
    let cands := candidates keep A s.labels border
    let (moved, s) ← tryCandidates ops keep A recipient cands.length cands s
    if moved then growRegion ops keep A recipient fuel s else .ok s

/-- The `while distinct_regions` loop (azp.py 338-391).  The first argument is the number of
iterations observed; it is called with the number of regions. -/
def passRegions {σ : Type} {k : Nat} (ops : StratOps σ k) (keep : Bool) (A : Csr k) (fuel : Nat) :
    Nat → List Int → AzpState σ k → Res (AzpState σ k)
  | _, [], s => .ok s
  | 0, _ :: _, _ => .timeout
  | m + 1, x :: xs, s => do
    let (recipient, rest, rng) ← popRandomlyFrom (x :: xs) s.rng
    let s ← growRegion ops keep A recipient fuel { s with rng := rng }
    passRegions ops keep A fuel m rest s

/-- The outer loop (azp.py 332-393). -/
def azpOuter {σ : Type} {k : Nat} (ops : StratOps σ k) (keep : Bool) (A : Csr k) (regions : List Int)
    (fuel : Nat) : Nat → Option ℚ → ℚ → AzpState σ k → Res (AzpState σ k)
  | m, start, stop, s =>
    if improving start stop then
      match m with
      | 0 => .timeout
      | m + 1 => do
        let s ← passRegions ops keep A fuel regions.length regions s
        azpOuter ops keep A regions fuel m (some stop) (ops.objVal s.strat) s
    else .ok s

/-- `AZP._azp_connected_component` (azp.py 284-394) observed for `fuel` iterations of each loop. -/
def azpComponent {σ : Type} {k : Nat} (ops : StratOps σ k) (keep : Bool) (A : Csr k) (fuel : Nat)
    (init : Labels k) (strat : σ) (rng : Rng) : Res (Labels k × σ × Rng) :=
  let regions := uniqueSorted (arrayList init)
  if regions.length = 1 then .ok (init, strat, rng)
  else if regions = [] then
    .raise .unboundLocalError     -- `del neighs` (azp.py 329) without any loop iteration
  else do
    let s ← azpOuter ops keep A regions fuel fuel none (ops.objVal strat)
      { labels := init, nbrs := initNbrs A init regions, strat := strat, rng := rng }
    .ok (s.labels, s.strat, s.rng)

/-- What `fit_from_scipy_sparse_matrix` does with one yielded array (azp.py 97-107).  `comp` is the
(possibly overridden) method `_azp_connected_component` preceded by `start_new_component`. -/
def fitStep {σ : Type} {n : Nat} {ρ : Type} (keep : Bool) (A : Csr n) (attr : Fin n → ρ)
    (comp : (idx : List (Fin n)) → Csr idx.length → Labels idx.length → (Fin idx.length → ρ) →
      σ → Rng → Res (Labels idx.length × σ × Rng))
    (y : Labels n) (labels : Labels n) (strat : σ) (rng : Rng) : Res (Labels n × σ × Rng) := do
  let idx := (List.finRange n).filter fun i => decide (y i ≠ -1)
  let (labelsComp, strat, rng) ← comp idx (A.sub keep idx) (fun i => y (idx.get i))
    (fun i => attr (idx.get i)) strat rng
  .ok (scatter idx labelsComp labels, strat, rng)

/-- The loop over the components (azp.py 97-107). -/
def fitLoop {σ : Type} {n : Nat} {ρ : Type} (keep : Bool) (A : Csr n) (attr : Fin n → ρ)
    (comp : (idx : List (Fin n)) → Csr idx.length → Labels idx.length → (Fin idx.length → ρ) →
      σ → Rng → Res (Labels idx.length × σ × Rng)) :
    Gen n → Labels n → σ → Rng → Res (Labels n × σ × Rng)
  | [], labels, strat, rng => .ok (labels, strat, rng)
  | step :: steps, labels, strat, rng => do
    let (y, rng) ← step rng
    match y with
    | .dict => .raise .typeError   -- `labels_comp[comp_idx]` on a dict (azp.py 100)
    | .array y => do
      let (labels, strat, rng) ← fitStep keep A attr comp y labels strat rng
      fitLoop keep A attr comp steps labels strat rng

/-- `AZP.fit_from_scipy_sparse_matrix` (azp.py 58-110) for a component routine `comp`: the value
stored in `labels_`. -/
def fitWith {σ : Type} {n : Nat} {ρ : Type} (o : Order) (keep : Bool) (A : Csr n) (attr : Fin n → ρ)
    (comp : (idx : List (Fin n)) → Csr idx.length → Labels idx.length → (Fin idx.length → ρ) →
      σ → Rng → Res (Labels idx.length × σ × Rng))
    (nRegions : Int) (initialLabels : Option (Labels n)) (strat : σ) (rng : Rng) :
    Res (Labels n × σ × Rng) :=
  match initialLabels with
  | some init => do
    A.assertFeasible keep init (some nRegions)
    fitLoop keep A attr comp ((A.separateComponents init).map fun y r => .ok (.array y, r))
      (fun _ => -1) strat rng
  | none => do
    let (gen, rng) ← A.generateInitialSol o keep nRegions rng
    fitLoop keep A attr comp gen (fun _ => -1) strat rng

/-- `start_new_component` followed by `AZP._azp_connected_component` with one of the library's
strategies (azp.py 102-106). -/
def azpComp {n q : Nat} {ρ : Type} (expf : ℚ → ℚ) (obj : Objective ρ) (fuel : Nat)
    (keep : Bool) (idx : List (Fin n)) (A : Csr idx.length) (init : Labels idx.length)
    (attr : Fin idx.length → ρ) (strat : Strat n q) (rng : Rng) :
    Res (Labels idx.length × Strat n q × Rng) :=
  azpComponent (Strat.ops expf (fun i => idx.get i) attr obj) keep A fuel init
    (strat.start (obj.call init attr)) rng

/-- `AZP(allow_move_strategy).fit(adj, attr, n_regions, initial_labels, objective_func)`. -/
def azpFit {n q : Nat} {ρ : Type} (o : Order) (expf : ℚ → ℚ) (obj : Objective ρ) (fuel : Nat)
    (keep : Bool) (A : Csr n) (attr : Fin n → ρ) (nRegions : Int) (initialLabels : Option (Labels n))
    (strat : Strat n q) (rng : Rng) : Res (Labels n × Strat n q × Rng) :=
  fitWith o keep A attr (azpComp expf obj fuel keep) nRegions initialLabels strat rng

/-- `AZPTabu._make_move` (azp.py 713-725): the labels and the tabu list afterwards and the returned
flag. -/
def tabuMakeMove {k : Nat} (keep : Bool) (A : Csr k) (area : Fin k) (newRegion : Int) (labels : Labels k)
    (tabu : Tabu k) : Res (Bool × Labels k × Tabu k) := do
  let oldRegion := labels area
  let labels1 := makeMove area newRegion labels
  let ok ← A.booleanAssertFeasible keep labels1 none
  if !ok then
    .ok (false, makeMove area oldRegion labels1, tabu.append ⟨area, newRegion, oldRegion⟩)
  else .ok (true, labels1, tabu.append ⟨area, newRegion, oldRegion⟩)

/-- The moves considered in step 1 of the basic (azp.py 812-826) and step 3 of the reactive version
(azp.py 949-964), in the order in which they are found. -/
def possibleMoves {k : Nat} (keep : Bool) (A : Csr k) (labels : Labels k) (tabu : Tabu k) : List (Move k) :=
  (List.finRange k).flatMap fun area =>
    if (A.sub keep (dropNodes (whereEq labels (labels area)) [area])).isConnected &&
        decide (count (arrayList labels) (labels area) > 1) then
      ((A.neighbors area).filter fun neigh =>
        decide (labels neigh ≠ labels area) &&
          !tabu.items.contains ⟨area, labels area, labels neigh⟩).map fun neigh =>
        ⟨area, labels area, labels neigh⟩
    else []

section Tabu
variable {σ : Type} {k : Nat} {ρ : Type} (ops : StratOps σ k) (obj : Objective ρ) (attr : Fin k → ρ)
  (keep : Bool) (A : Csr k)

/-- `if self.allow_move_strategy(…): self._make_move(…)`; the flag is the answer of the strategy. -/
def tryMove (m : Move k) (s : TabuState σ k) : Res (Bool × TabuState σ k) := do
  let (allowed, strat, rng) ← ops.call s.strat m.area m.new s.labels s.rng
  let s := { s with strat := strat, rng := rng }
  if allowed then do
    let (_, labels, tabu) ← tabuMakeMove keep A m.area m.new s.labels s.tabu
    .ok (true, { s with labels := labels, tabu := tabu })
  else .ok (false, s)

/-- Step 3 (azp.py 838-853): the aspiration move. -/
def aspiration (s : TabuState σ k) : Res (TabuState σ k) := do
  let moves ← improvingTabus obj attr s.labels s.tabu.items
  if moves = [] then .ok s
  else do
    let (m, rng) ← randomElementFrom moves s.rng
    let (_, s) ← tryMove ops keep A m { s with rng := rng }
    .ok s

/-- Steps 3 and 4 (azp.py 837-866); the flag says that the loop is left. -/
def basicElse (best : Option (Nat × Move k × ℚ)) (s : TabuState σ k) :
    Res (Bool × TabuState σ k) := do
  let s ← aspiration ops obj attr keep A s
  if s.stop then .ok (true, s)
  else
    match best with
    | none => .ok (false, s)
    | some (_, m, _) => do
      let (_, s) ← tryMove ops keep A m s
      .ok (false, s)

/-- One round of the `while True` loop (azp.py 802-866). -/
def basicRound (s : TabuState σ k) : Res (Bool × TabuState σ k) := do
  let best ← bestMove obj attr s.labels (possibleMoves keep A s.labels s.tabu) 0 none
  match best with
  | none => basicElse ops obj attr keep A best s
  | some (_, m, d) =>
    if d ≤ 0 then do
      let (allowed, s) ← tryMove ops keep A m s
      if allowed then .ok (false, s) else basicElse ops obj attr keep A best s
    else basicElse ops obj attr keep A best s

/-- The `while True` loop (azp.py 802-866). -/
def basicLoop (reps : Int) : Nat → TabuState σ k → Res (TabuState σ k)
  | 0, _ => .timeout
  | fuel + 1, s => do
    let (done, s) ← basicRound ops obj attr keep A (noteVisit reps s)
    if done then .ok s else basicLoop reps fuel s

/-- `AZPBasicTabu._azp_connected_component` (azp.py 765-861) with `tabu_length` `len` and
`repetitions_before_termination` `reps`. -/
def basicComponent (len : Option Nat) (reps : Int) (fuel : Nat) (init : Labels k) (strat : σ)
    (rng : Rng) : Res (Labels k × σ × Rng) :=
  if (uniqueSorted (arrayList init)).length = 1 then .ok (init, strat, rng)
  else do
    let s ← basicLoop ops obj attr keep A reps fuel
      { labels := init, tabu := ⟨[], len⟩, visited := [], stop := false, strat := strat, rng := rng }
    .ok (s.labels, s.strat, s.rng)

/-- The random moves of step 11 (azp.py 1015-1019). -/
def randomMoves : Nat → List (Move k) → TabuState σ k → Res (TabuState σ k)
  | 0, _, s => .ok s
  | p + 1, moves, s => do
    let (m, moves, rng) ← popRandomlyFrom moves s.rng
    let (_, s) ← tryMove ops keep A m { s with rng := rng }
    randomMoves p moves s

/-- One execution of the loop body from step 3 on (azp.py 947-1036).  In `s` the fields `labels`,
`tabu`, `strat`, `rng` are the ones of the code, `visited` is `self.visited`; the field `stop` is not
used. -/
def reactRound (k1 k2 : Int) (avg : ℚ) (s : TabuState σ k) :
    Res (LastStep × TabuState σ k) := do
  let moves := possibleMoves keep A s.labels s.tabu
  let best ← bestMove obj attr s.labels moves 0 none
  match best with
  | none => .raise .attributeError        -- `best_move.area` with `best_move = None`
  | some (idx, m, _) => do
    let (_, s) ← tryMove ops keep A m s
    let lt := arrayList s.labels
    if s.visited.contains lt then
      let cycle := lastCycle s.visited lt
      if k1 < (s.visited.count lt : Int) then
        let found := if 0 < k2 then
            cycleCount s.visited cycle k2 (List.range (s.visited.length - cycle.length)) 0
          else 0
        if k2 ≤ found then do
          let s' ← randomMoves ops keep A (⌊1 + avg / 2⌋).toNat (moves.eraseIdx idx)
            { s with visited := [] }
          .ok (.eleven lt, s')
        else
          .raise .typeError    -- `deque(self.tabu, 1.1 * maxlen)`: a float is not a valid length
      else .ok (.ten, { s with visited := s.visited ++ [lt] })
    else .ok (.ten, { s with visited := s.visited ++ [lt] })

/-- The loop (azp.py 940-1037).  The first argument is the number of iterations left, `start` is
`obj_val_start`. Because step 8 always raises, `avg_it_until_rep`, `rep_counter` and the length of the
tabu list never change. -/
def reactLoop (k1 k2 : Int) (avg : ℚ) : Nat → Option ℚ → Option LastStep → TabuState σ k →
    Res (Option LastStep × TabuState σ k)
  | 0, _, last, s => .ok (last, s)
  | it + 1, start, last, s =>
    let stop := obj.call s.labels attr
    if improving start stop then do
      let (l, s) ← reactRound ops obj attr keep A k1 k2 avg s
      reactLoop k1 k2 avg it (some stop) (some l) s
    else .ok (last, s)

/-- `AZPReactiveTabu._azp_connected_component` (azp.py 907-1046): the returned array as a list. -/
def reactComponentList (maxIt : Nat) (k1 k2 : Int) (init : Labels k) (self : ReactObj σ) :
    Res (List Int × ReactObj σ) :=
  if (uniqueSorted (arrayList init)).length = 1 then .ok (arrayList init, self)
  else do
    let (last, s) ← reactLoop ops obj attr keep A k1 k2 self.avg maxIt none none
      { labels := init, tabu := ⟨[], some 1⟩, visited := self.visited, stop := false,
        strat := self.strat, rng := self.rng }
    let out ← reactResult s.visited last
    .ok (out, { self with visited := s.visited, strat := s.strat, rng := s.rng })

end Tabu

/-- `AZPBasicTabu(tabu_length, reps).fit(...)` with the library's strategies. -/
def basicTabuFit {n q : Nat} {ρ : Type} (o : Order) (expf : ℚ → ℚ) (obj : Objective ρ)
    (fuel : Nat) (len : Option Nat) (reps : Int) (keep : Bool) (A : Csr n) (attr : Fin n → ρ) (nRegions : Int)
    (initialLabels : Option (Labels n)) (strat : Strat n q) (rng : Rng) :
    Res (Labels n × Strat n q × Rng) :=
  fitWith o keep A attr (fun idx a init at' st rng =>
    basicComponent (Strat.ops expf (fun i => idx.get i) at' obj) obj at' keep a len reps fuel init
      (st.start (obj.call init at')) rng) nRegions initialLabels strat rng

/-- `AZPReactiveTabu(max_iterations, k1, k2).fit(...)` with the library's strategies. -/
def reactiveTabuFit {n q : Nat} {ρ : Type} (o : Order) (expf : ℚ → ℚ) (obj : Objective ρ)
    (maxIt : Nat) (k1 k2 : Int) (keep : Bool) (A : Csr n) (attr : Fin n → ρ) (nRegions : Int)
    (initialLabels : Option (Labels n)) (self : ReactSelf (Strat n q)) (rng : Rng) :
    Res (Labels n × ReactSelf (Strat n q) × Rng) :=
  fitWith o keep A attr (fun idx a init at' self rng => do
    let (out, self') ← reactComponentList (Strat.ops expf (fun i => idx.get i) at' obj) obj at' keep a
      maxIt k1 k2 init
      ⟨self.visited, self.avg, self.repCounter, self.strat.start (obj.call init at'), rng⟩
    let labels ← fromArray idx.length out
    .ok (labels, ⟨self'.visited, self'.avg, self'.repCounter, self'.strat⟩, self'.rng))
    nRegions initialLabels self rng

/-- `AZPSimulatedAnnealing.fit_from_scipy_sparse_matrix` (azp.py 615-662): what is stored in
`labels_` (`none` is Python's `None`) and the attributes of the object afterwards.  `fuels` are the
numbers of iterations observed of the outer loop, the inner loop and the loops of AZP. -/
def saFit {n : Nat} {ρ : Type} (o : Order) (expf : ℚ → ℚ) (obj : Objective ρ)
    (outerFuel innerFuel azpFuel : Nat) (P : SaParams) (self : SaObj) (keep : Bool) (A : Csr n)
    (attr : Fin n → ρ) (nRegions : Int) (initialLabels : Option (Labels n)) (cooling : ℚ)
    (rng : Rng) : Res (Option (Labels n) × SaObj × Strat n 0 × Rng) :=
  if ¬ (0 < cooling ∧ cooling < 1) then
    .raise (.valueError
      "The cooling_factor argument must be greater than 0 and less than 1")
  else do
    let st ← newSaStrategy (n := n) (q := 0) P.initTemperature P.saMovesTerm
    let (L, visited, st, rng) ← saOuter
      (fun cur st rng => azpFit o expf obj azpFuel keep A attr nRegions cur st rng)
      P cooling innerFuel outerFuel P.initTemperature 0 initialLabels self.visited
      (st.saSetMoveMade self.moveMade) rng
    .ok (L, ⟨visited, st.saMoveMade⟩, st, rng)

end Region.Csr
