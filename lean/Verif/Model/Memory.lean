import Verif.Model.Objects
/-
The label arrays in memory.

The models of the searches treat an array of labels as a value.  In Python it is an object: several
variables can denote the same array, and `make_move`, `labels[comp_idx] = …` and
`ObjectiveFunctionCenter.update` change it in place.  This file follows the same functions once more,
with arrays at addresses of a memory, so that it is visible which array is copied, which one is shared
and which one is written to.

Attributes, adjacency matrices and tuples (`visited`, `Move`) are never written to by these functions
and stay values.
-/
namespace Region

/-- The arrays existing at some moment; the position in the list is the address. -/
abbrev Mem := List (List Int)

/-- Where an array is. -/
abbrev Addr := Nat

namespace Mem

/-- A new array (`np.array`, `-np.ones(…)`, `np.zeros(…)`, or indexing by an array of indices). -/
def new (l : List Int) : Py Mem Addr := fun M => (.ok M.length, M ++ [l])

/-- The elements of the array at an address.  Nothing else than an array is ever at the addresses the
program uses; `RuntimeError` stands for that. -/
def read (a : Addr) : Py Mem (List Int) := fun M =>
  match M[a]? with
  | some l => (.ok l, M)
  | none => (.raise .runtimeError, M)

/-- The array at an address as a function of the area. -/
def view (k : Nat) (a : Addr) : Py Mem (Labels k) := fun M =>
  match M[a]? with
  | some l => if h : l.length = k then (.ok fun i => l[i.val], M) else (.raise .indexError, M)
  | none => (.raise .runtimeError, M)

/-- `labels[i] = x`, in place. -/
def setItem (a : Addr) (i : Nat) (x : Int) : Py Mem Unit := fun M =>
  match M[a]? with
  | some l => if i < l.length then (.ok (), M.set a (l.set i x)) else (.raise .indexError, M)
  | none => (.raise .runtimeError, M)

/-- `labels[idx] = vals`, in place. -/
def putAll {n : Nat} (a : Addr) (idx : List (Fin n)) (vals : Fin idx.length → Int) : Py Mem Unit := do
  let old ← view n a
  Py.set fun M => M.set a (arrayList (scatter idx vals old))

end Mem

/-! ### Objective functions -/

/-- An objective function working on an array in memory. -/
structure ObjectiveMem (ρ : Type) where
  call : {k : Nat} → Addr → (Fin k → ρ) → Py Mem ℚ
  update : {k : Nat} → Fin k → Int → Addr → (Fin k → ρ) → Py Mem ℚ

/-- A value that is not there because a metric was given an empty array. -/
def orEmptyArray {α : Type} : Option α → Res α
  | none => .raise (.valueError "Found array with 0 sample(s)")
  | some d => .ok d

/-- `ObjectiveFunctionPairwise` (objective_function.py 63-92): it only reads the labels. -/
def pairwiseMem {ρ : Type} (metric : ρ → ρ → ℚ) : ObjectiveMem ρ where
  call {k} p attr := do
    let labels ← Mem.view k p
    pure (pairwiseCall metric labels attr)
  update {k} a recipient p attr := do
    let labels ← Mem.view k p
    Py.lift (orEmptyArray (pairwiseUpdate metric a recipient labels attr))

/-- `ObjectiveFunctionCenter` (objective_function.py 95-165): `update` moves the area (line 154) and moves it
back (line 159). -/
def centeredMem {ρ : Type} (metric : ρ → ρ → ℚ) (center : List ρ → ρ) (reduction : List ℚ → ℚ) :
    ObjectiveMem ρ where
  call {k} p attr := do
    let labels ← Mem.view k p
    pure (centerCall metric center reduction labels attr)
  update {k} a recipient p attr := do
    let labels ← Mem.view k p
    let donor := labels a
    let donorBefore ← Py.lift (orEmptyArray (intraregional metric center reduction labels donor attr))
    let recipientBefore ←
      Py.lift (orEmptyArray (intraregional metric center reduction labels recipient attr))
    Mem.setItem p a recipient
    let labels ← Mem.view k p
    let donorAfter ← Py.lift (orEmptyArray (intraregional metric center reduction labels donor attr))
    let recipientAfter ←
      Py.lift (orEmptyArray (intraregional metric center reduction labels recipient attr))
    Mem.setItem p a donor
    pure (reduction [donorAfter, recipientAfter] - reduction [donorBefore, recipientBefore])

/-! ### Strategies -/

/-- What the searches use of an allow-move strategy. -/
structure MemOps (σ : Type) (k : Nat) where
  call : σ → Fin k → Int → Addr → Rng → Py Mem (Bool × σ × Rng)
  objVal : σ → ℚ

/-- `__call__` of the three strategies (azp_util.py 62-70, 86-104, 185-204). -/
def Strat.callMem {n q : Nat} {ρ : Type} (expf : ℚ → ℚ) {k : Nat} (idx : Fin k → Fin n)
    (attr : Fin k → ρ) (obj : ObjectiveMem ρ) :
    Strat n q → Fin k → Int → Addr → Rng → Py Mem (Bool × Strat n q × Rng)
  | .azp v, a, region, p, r => do
    let diff ← obj.update a region p attr
    if diff ≤ 0 then pure (true, .azp (v + diff), r) else pure (false, .azp v, r)
  | .sa t term m v al mm, a, region, p, r => do
    let diff ← obj.update a region p attr
    if diff ≤ 0 then pure (true, .sa t term m (v + diff) al true, r)
    else
      match randomLt (acceptProb expf diff t) r with
      | (true, r) =>
        pure (true, .sa t term (m + 1) (v + diff) (al || decide (m + 1 ≥ term)) true, r)
      | (false, r) => pure (false, .sa t term m v al mm, r)
  | .maxp spat thr v inner, a, region, p, r => do
    let labels ← Mem.view k p
    if maxpBlocks (fun i => spat (idx i)) thr a labels then pure (false, .maxp spat thr v inner, r)
    else do
      let (b, inner', r') ← callMem expf idx attr obj inner a region p r
      pure (b, .maxp spat thr v inner', r')

/-- The operations of a strategy object on one component. -/
def Strat.opsMem {n q : Nat} {ρ : Type} (expf : ℚ → ℚ) {k : Nat} (idx : Fin k → Fin n)
    (attr : Fin k → ρ) (obj : ObjectiveMem ρ) : MemOps (Strat n q) k where
  call := Strat.callMem expf idx attr obj
  objVal := Strat.objVal

/-! ### `AZP` -/

/-- The local variables of `_azp_connected_component` apart from the array `labels`. -/
structure AzpLocals (σ : Type) (k : Nat) where
  nbrs : Int → Option (Fin k → Bool)
  strat : σ
  rng : Rng

section
variable {σ : Type} {k : Nat} (ops : MemOps σ k) (adj : Adj k) (p : Addr)

/-- The body of the accepted move (azp.py 366-388). -/
def applyMoveMem (recipient : Int) (cand : Fin k) (s : AzpLocals σ k) : Py Mem (AzpLocals σ k) := do
  let labels ← Mem.view k p
  let donor := labels cand
  Mem.setItem p cand recipient                         -- make_move(cand, recipient, labels)
  let nbrs ← Py.lift (modNbrs s.nbrs donor fun t v => t v || decide (v = cand))
  let nbrs ← Py.lift (modNbrs nbrs recipient fun t v => t v && !decide (v = cand))
  let neighsOfCand := neighbors adj cand
  let labels ← Mem.view k p
  let recipientAreas := whereEq labels recipient
  let nbrs ← Py.lift (modNbrs nbrs recipient fun t v =>
    (t v || neighsOfCand.contains v) && !recipientAreas.contains v)
  let donorAreas := whereEq labels donor
  let notAnymore := neighsOfCand.filter fun area =>
    !(neighbors adj area).any fun a => donorAreas.contains a
  let nbrs ← Py.lift (modNbrs nbrs donor fun t v => t v && !notAnymore.contains v)
  pure { s with nbrs := nbrs }

/-- Step 5 (azp.py 363-391). -/
def tryCandidatesMem (recipient : Int) :
    Nat → List (Fin k) → AzpLocals σ k → Py Mem (Bool × AzpLocals σ k)
  | _, [], s => pure (false, s)
  | 0, _ :: _, _ => Py.lift .timeout
  | fuel + 1, c :: cs, s => do
    let (cand, rest, rng) ← Py.lift (popRandomlyFrom (c :: cs) s.rng)
    let (allowed, strat, rng) ← ops.call s.strat cand recipient p rng
    let s := { s with strat := strat, rng := rng }
    if allowed then do
      let s ← applyMoveMem adj p recipient cand s
      pure (true, s)
    else tryCandidatesMem recipient fuel rest s

/-- The `while True` loop for one recipient (azp.py 341-391). -/
def growRegionMem (recipient : Int) : Nat → AzpLocals σ k → Py Mem (AzpLocals σ k)
  | 0, _ => Py.lift .timeout
  | fuel + 1, s => do
    let border ← Py.lift (getNbrs s.nbrs recipient)
    let labels ← Mem.view k p
    let cands := candidates adj labels border
    let (moved, s) ← tryCandidatesMem ops adj p recipient cands.length cands s
    if moved then growRegionMem recipient fuel s else pure s

/-- The `while distinct_regions` loop (azp.py 338-391). -/
def passRegionsMem (fuel : Nat) : Nat → List Int → AzpLocals σ k → Py Mem (AzpLocals σ k)
  | _, [], s => pure s
  | 0, _ :: _, _ => Py.lift .timeout
  | m + 1, x :: xs, s => do
    let (recipient, rest, rng) ← Py.lift (popRandomlyFrom (x :: xs) s.rng)
    let s ← growRegionMem ops adj p recipient fuel { s with rng := rng }
    passRegionsMem fuel m rest s

/-- The outer loop (azp.py 332-393). -/
def azpOuterMem (regions : List Int) (fuel : Nat) :
    Nat → Option ℚ → ℚ → AzpLocals σ k → Py Mem (AzpLocals σ k)
  | m, start, stop, s =>
    if improving start stop then
      match m with
      | 0 => Py.lift .timeout
      | m + 1 => do
        let s ← passRegionsMem ops adj p fuel regions.length regions s
        azpOuterMem regions fuel m (some stop) (ops.objVal s.strat) s
    else pure s

/-- `AZP._azp_connected_component` (azp.py 284-394): `labels = initial_clustering` does not copy, so the
array at `p` is changed, and it is the array returned. -/
def azpComponentMem (fuel : Nat) (strat : σ) (rng : Rng) : Py Mem (Addr × σ × Rng) := do
  let init ← Mem.view k p
  let regions := uniqueSorted (arrayList init)
  if regions.length = 1 then pure (p, strat, rng)
  else if regions = [] then Py.lift (.raise .unboundLocalError)
  else do
    let s ← azpOuterMem ops adj p regions fuel fuel none (ops.objVal strat)
      { nbrs := initNbrs adj init regions, strat := strat, rng := rng }
    pure (p, s.strat, s.rng)

end

/-- A component routine in memory: the areas of the component, its matrix, the array of its labels and its
attributes; the answer is the address of the array returned. -/
abbrev CompMem (σ : Type) (n : Nat) (ρ : Type) :=
  (idx : List (Fin n)) → Adj idx.length → Addr → (Fin idx.length → ρ) → σ → Rng →
    Py Mem (Addr × σ × Rng)

section
variable {σ : Type} {n : Nat} {ρ : Type} (adj : Adj n) (attr : Fin n → ρ) (comp : CompMem σ n ρ)

/-- What `fit_from_scipy_sparse_matrix` does with one yielded array (azp.py 98-107): `labels_comp[comp_idx]`
makes a copy, and the result of the component is copied into `labels`. -/
def fitStepMem (y labels : Addr) (strat : σ) (rng : Rng) : Py Mem (σ × Rng) := do
  let yv ← Mem.view n y
  let idx := (List.finRange n).filter fun i => decide (yv i ≠ -1)
  let c ← Mem.new (arrayList fun i : Fin idx.length => yv (idx.get i))
  let (b, strat, rng) ← comp idx (subAdj adj idx) c (fun i => attr (idx.get i)) strat rng
  let out ← Mem.read b
  let vals ← Py.lift (fromArray idx.length out)
  Mem.putAll labels idx vals
  pure (strat, rng)

/-- A generator of arrays; `none` is the dict of util.py 615. -/
abbrev GenMem := List (Rng → Py Mem (Option Addr × Rng))

/-- The loop over the components (azp.py 97-107). -/
def fitLoopMem : GenMem → Addr → σ → Rng → Py Mem (σ × Rng)
  | [], _, strat, rng => pure (strat, rng)
  | step :: steps, labels, strat, rng => do
    let (y, rng) ← step rng
    match y with
    | none => Py.lift (.raise .typeError)
    | some y => do
      let (strat, rng) ← fitStepMem adj attr comp y labels strat rng
      fitLoopMem steps labels strat rng

/-- `separate_components(adj, labels)` (util.py 843-848): for every component a new array, into which the labels
of its areas are copied when the array is asked for. -/
def separateMem (p : Addr) : GenMem :=
  (List.range (nComponents adj)).map fun comp rng => do
    let labels ← Mem.view n p
    let y ← Mem.new (arrayList fun i => if compLabels adj i = comp then labels i else -1)
    pure (some y, rng)

/-- One step of `generate_initial_sol` (util.py 629-643): a new array for every component. -/
def yieldMem (step : Rng → Res (Yielded n × Rng)) (rng : Rng) : Py Mem (Option Addr × Rng) := do
  let (y, rng) ← Py.lift (step rng)
  match y with
  | .dict => pure (none, rng)
  | .array L => do
    let y ← Mem.new (arrayList L)
    pure (some y, rng)

/-- `AZP.fit_from_scipy_sparse_matrix` (azp.py 86-110): the array stored in `labels_`.  `initial` is the array the
caller passes as `initial_labels`. -/
def fitWithMem (o : MstOrder) (nRegions : Int) (initial : Option Addr) (strat : σ) (rng : Rng) :
    Py Mem (Addr × σ × Rng) :=
  match initial with
  | some p => do
    let init ← Mem.view n p
    Py.lift (assertFeasible init adj (some nRegions))
    let labels ← Mem.new (arrayList fun _ : Fin n => -1)
    let (strat, rng) ← fitLoopMem adj attr comp (separateMem adj p) labels strat rng
    pure (labels, strat, rng)
  | none => do
    let labels ← Mem.new (arrayList fun _ : Fin n => -1)
    let (gen, rng) ← Py.lift (generateInitialSol o adj nRegions rng)
    let (strat, rng) ← fitLoopMem adj attr comp (gen.map yieldMem) labels strat rng
    pure (labels, strat, rng)

end

/-- `start_new_component` (which reads the labels) followed by `AZP._azp_connected_component` (azp.py
102-106). -/
def azpCompMem {n q : Nat} {ρ : Type} (expf : ℚ → ℚ) (obj : ObjectiveMem ρ) (fuel : Nat) :
    CompMem (Strat n q) n ρ := fun idx adj p attr strat rng => do
  let v ← obj.call p attr
  azpComponentMem (Strat.opsMem expf (fun i => idx.get i) attr obj) adj p fuel (strat.start v) rng

/-- `AZP(allow_move_strategy).fit(…)`. -/
def azpFitMem {n q : Nat} {ρ : Type} (o : MstOrder) (expf : ℚ → ℚ) (obj : ObjectiveMem ρ) (fuel : Nat)
    (adj : Adj n) (attr : Fin n → ρ) (nRegions : Int) (initial : Option Addr) (strat : Strat n q)
    (rng : Rng) : Py Mem (Addr × Strat n q × Rng) :=
  fitWithMem adj attr (azpCompMem expf obj fuel) o nRegions initial strat rng

/-! ### The tabu searches -/

/-- The variables of the loops of the tabu searches apart from the array `labels`. -/
structure TabuLocals (σ : Type) (k : Nat) where
  tabu : Tabu k
  visited : List (List Int)
  stop : Bool
  strat : σ
  rng : Rng

section
variable {σ : Type} {k : Nat} {ρ : Type} (ops : MemOps σ k) (obj : ObjectiveMem ρ) (attr : Fin k → ρ)
  (adj : Adj k) (p : Addr)

/-- `AZPTabu._make_move` (azp.py 713-725). -/
def tabuMakeMoveMem (area : Fin k) (newRegion : Int) (tabu : Tabu k) : Py Mem (Bool × Tabu k) := do
  let labels ← Mem.view k p
  let oldRegion := labels area
  Mem.setItem p area newRegion
  let labels ← Mem.view k p
  let ok ← Py.lift (booleanAssertFeasible labels adj none)
  if !ok then do
    Mem.setItem p area oldRegion
    pure (false, tabu.append ⟨area, newRegion, oldRegion⟩)
  else pure (true, tabu.append ⟨area, newRegion, oldRegion⟩)

/-- `if self.allow_move_strategy(…): self._make_move(…)`. -/
def tryMoveMem (m : Move k) (s : TabuLocals σ k) : Py Mem (Bool × TabuLocals σ k) := do
  let (allowed, strat, rng) ← ops.call s.strat m.area m.new p s.rng
  let s := { s with strat := strat, rng := rng }
  if allowed then do
    let (_, tabu) ← tabuMakeMoveMem adj p m.area m.new s.tabu
    pure (true, { s with tabu := tabu })
  else pure (false, s)

/-- The search for the best move (azp.py 826-831, 966-974). -/
def bestMoveMem : List (Move k) → Nat → Option (Nat × Move k × ℚ) → Py Mem (Option (Nat × Move k × ℚ))
  | [], _, best => pure best
  | m :: ms, i, best => do
    let d ← obj.update m.area m.new p attr
    let best := match best with
      | none => some (i, m, d)
      | some (j, m', d') => if d < d' then some (i, m, d) else some (j, m', d')
    bestMoveMem ms (i + 1) best

/-- The list comprehension `improving_tabus` (azp.py 841-846). -/
def improvingTabusMem : List (Move k) → Py Mem (List (Move k))
  | [] => pure []
  | m :: ms => do
    let labels ← Mem.view k p
    if labels m.area = m.old then do
      let d ← obj.update m.area m.new p attr
      let rest ← improvingTabusMem ms
      pure (if d < 0 then m :: rest else rest)
    else improvingTabusMem ms

/-- Step 3 (azp.py 838-853): the aspiration move. -/
def aspirationMem (s : TabuLocals σ k) : Py Mem (TabuLocals σ k) := do
  let moves ← improvingTabusMem obj attr p s.tabu.items
  if moves = [] then pure s
  else do
    let (m, rng) ← Py.lift (randomElementFrom moves s.rng)
    let (_, s) ← tryMoveMem ops adj p m { s with rng := rng }
    pure s

/-- Steps 3 and 4 (azp.py 837-866). -/
def basicElseMem (best : Option (Nat × Move k × ℚ)) (s : TabuLocals σ k) :
    Py Mem (Bool × TabuLocals σ k) := do
  let s ← aspirationMem ops obj attr adj p s
  if s.stop then pure (true, s)
  else
    match best with
    | none => pure (false, s)
    | some (_, m, _) => do
      let (_, s) ← tryMoveMem ops adj p m s
      pure (false, s)

/-- One round of the `while True` loop (azp.py 802-866). -/
def basicRoundMem (s : TabuLocals σ k) : Py Mem (Bool × TabuLocals σ k) := do
  let labels ← Mem.view k p
  let best ← bestMoveMem obj attr p (possibleMoves adj labels s.tabu) 0 none
  match best with
  | none => basicElseMem ops obj attr adj p best s
  | some (_, m, d) =>
    if d ≤ 0 then do
      let (allowed, s) ← tryMoveMem ops adj p m s
      if allowed then pure (false, s) else basicElseMem ops obj attr adj p best s
    else basicElseMem ops obj attr adj p best s

/-- The bookkeeping at the start of a round (azp.py 803-808): `tuple(labels)` copies. -/
def noteVisitMem (reps : Int) (s : TabuLocals σ k) : Py Mem (TabuLocals σ k) := do
  let tup ← Mem.read p
  pure { s with
    stop := s.stop || decide (reps ≤ (s.visited.count tup : Int)), visited := s.visited ++ [tup] }

/-- The `while True` loop (azp.py 802-866). -/
def basicLoopMem (reps : Int) : Nat → TabuLocals σ k → Py Mem (TabuLocals σ k)
  | 0, _ => Py.lift .timeout
  | fuel + 1, s => do
    let s ← noteVisitMem p reps s
    let (done, s) ← basicRoundMem ops obj attr adj p s
    if done then pure s else basicLoopMem reps fuel s

/-- `AZPBasicTabu._azp_connected_component` (azp.py 765-867): the array at `p` is changed and returned. -/
def basicComponentMem (len : Option Nat) (reps : Int) (fuel : Nat) (strat : σ) (rng : Rng) :
    Py Mem (Addr × σ × Rng) := do
  let init ← Mem.read p
  if (uniqueSorted init).length = 1 then pure (p, strat, rng)
  else do
    let s ← basicLoopMem ops obj attr adj p reps fuel
      { tabu := ⟨[], len⟩, visited := [], stop := false, strat := strat, rng := rng }
    pure (p, s.strat, s.rng)

/-- The random moves of step 11 (azp.py 1015-1019). -/
def randomMovesMem : Nat → List (Move k) → TabuLocals σ k → Py Mem (TabuLocals σ k)
  | 0, _, s => pure s
  | c + 1, moves, s => do
    let (m, moves, rng) ← Py.lift (popRandomlyFrom moves s.rng)
    let (_, s) ← tryMoveMem ops adj p m { s with rng := rng }
    randomMovesMem c moves s

/-- One execution of the loop body from step 3 on (azp.py 947-1036). -/
def reactRoundMem (k1 k2 : Int) (avg : ℚ) (s : TabuLocals σ k) :
    Py Mem (LastStep × TabuLocals σ k) := do
  let labels ← Mem.view k p
  let moves := possibleMoves adj labels s.tabu
  let best ← bestMoveMem obj attr p moves 0 none
  match best with
  | none => Py.lift (.raise .attributeError)
  | some (idx, m, _) => do
    let (_, s) ← tryMoveMem ops adj p m s
    let lt ← Mem.read p
    if s.visited.contains lt then
      let cycle := lastCycle s.visited lt
      if k1 < (s.visited.count lt : Int) then
        let found := if 0 < k2 then
            cycleCount s.visited cycle k2 (List.range (s.visited.length - cycle.length)) 0
          else 0
        if k2 ≤ found then do
          let s' ← randomMovesMem ops adj p (⌊1 + avg / 2⌋).toNat (moves.eraseIdx idx)
            { s with visited := [] }
          pure (.eleven lt, s')
        else Py.lift (.raise .typeError)
      else pure (.ten, { s with visited := s.visited ++ [lt] })
    else pure (.ten, { s with visited := s.visited ++ [lt] })

/-- The loop (azp.py 940-1037). -/
def reactLoopMem (k1 k2 : Int) (avg : ℚ) : Nat → Option ℚ → Option LastStep → TabuLocals σ k →
    Py Mem (Option LastStep × TabuLocals σ k)
  | 0, _, last, s => pure (last, s)
  | it + 1, start, last, s => do
    let stop ← obj.call p attr
    if improving start stop then do
      let (l, s) ← reactRoundMem ops obj attr adj p k1 k2 avg s
      reactLoopMem k1 k2 avg it (some stop) (some l) s
    else pure (last, s)

/-- `AZPReactiveTabu._azp_connected_component` (azp.py 907-1046): the array at `p` is changed, but unless there is
only one region a new array is returned (`np.array(…)`). -/
def reactComponentMem (maxIt : Nat) (k1 k2 : Int) (self : ReactObj σ) :
    Py Mem (Addr × ReactObj σ) := do
  let init ← Mem.read p
  if (uniqueSorted init).length = 1 then pure (p, self)
  else do
    let (last, s) ← reactLoopMem ops obj attr adj p k1 k2 self.avg maxIt none none
      { tabu := ⟨[], some 1⟩, visited := self.visited, stop := false, strat := self.strat,
        rng := self.rng }
    let out ← Py.lift (reactResult s.visited last)
    let b ← Mem.new out
    pure (b, { self with visited := s.visited, strat := s.strat, rng := s.rng })

end

/-- `start_new_component` and `AZPBasicTabu._azp_connected_component`. -/
def basicCompMem {n q : Nat} {ρ : Type} (expf : ℚ → ℚ) (obj : ObjectiveMem ρ) (fuel : Nat)
    (len : Option Nat) (reps : Int) : CompMem (Strat n q) n ρ := fun idx adj p attr strat rng => do
  let v ← obj.call p attr
  basicComponentMem (Strat.opsMem expf (fun i => idx.get i) attr obj) obj attr adj p len reps fuel
    (strat.start v) rng

/-- `AZPBasicTabu(tabu_length, reps).fit(…)`. -/
def basicTabuFitMem {n q : Nat} {ρ : Type} (o : MstOrder) (expf : ℚ → ℚ) (obj : ObjectiveMem ρ)
    (fuel : Nat) (len : Option Nat) (reps : Int) (adj : Adj n) (attr : Fin n → ρ) (nRegions : Int)
    (initial : Option Addr) (strat : Strat n q) (rng : Rng) : Py Mem (Addr × Strat n q × Rng) :=
  fitWithMem adj attr (basicCompMem expf obj fuel len reps) o nRegions initial strat rng

/-- `start_new_component` and `AZPReactiveTabu._azp_connected_component`. -/
def reactCompMem {n q : Nat} {ρ : Type} (expf : ℚ → ℚ) (obj : ObjectiveMem ρ) (maxIt : Nat)
    (k1 k2 : Int) : CompMem (ReactSelf (Strat n q)) n ρ := fun idx adj p attr self rng => do
  let v ← obj.call p attr
  let (b, self') ← reactComponentMem (Strat.opsMem expf (fun i => idx.get i) attr obj) obj attr adj p
    maxIt k1 k2 ⟨self.visited, self.avg, self.repCounter, self.strat.start v, rng⟩
  pure (b, ⟨self'.visited, self'.avg, self'.repCounter, self'.strat⟩, self'.rng)

/-- `AZPReactiveTabu(max_iterations, k1, k2).fit(…)`. -/
def reactiveTabuFitMem {n q : Nat} {ρ : Type} (o : MstOrder) (expf : ℚ → ℚ) (obj : ObjectiveMem ρ)
    (maxIt : Nat) (k1 k2 : Int) (adj : Adj n) (attr : Fin n → ρ) (nRegions : Int)
    (initial : Option Addr) (self : ReactSelf (Strat n q)) (rng : Rng) :
    Py Mem (Addr × ReactSelf (Strat n q) × Rng) :=
  fitWithMem adj attr (reactCompMem expf obj maxIt k1 k2) o nRegions initial self rng

/-! ### Simulated annealing -/

section
variable {n : Nat} (azp : Option Addr → Strat n 0 → Rng → Py Mem (Addr × Strat n 0 × Rng))

/-- Step b (azp.py 639-650): `old_sol` and `initial_labels` are arrays, compared after the run. -/
def saInnerMem (maxIt : Option Int) : Nat → Nat → Option Addr → Strat n 0 → Rng →
    Py Mem (Option Addr × Strat n 0 × Rng)
  | fuel, it, cur, st, rng =>
    if belowMax it maxIt && !st.saAlert then
      match fuel with
      | 0 => Py.lift .timeout
      | fuel + 1 => do
        let (new, st, rng) ← azp cur st rng
        match cur with
        | some old => do
          let o ← Mem.read old
          let w ← Mem.read new
          if o = w then pure (some new, st, rng)
          else saInnerMem maxIt fuel (it + 1) (some new) st rng
        | none => saInnerMem maxIt fuel (it + 1) (some new) st rng
    else pure (cur, st, rng)

/-- Step d (azp.py 634-661). -/
def saOuterMem (P : SaParams) (cooling : ℚ) (innerFuel : Nat) : Nat → ℚ → Nat → Option Addr →
    List (List Int) → Strat n 0 → Rng →
    Py Mem (Option Addr × List (List Int) × Strat n 0 × Rng)
  | fuel, t, nm, cur, visited, st, rng =>
    if (nm : Int) < P.nonmovingSteps then
      match fuel with
      | 0 => Py.lift .timeout
      | fuel + 1 => do
        let (cur, st, rng) ← saInnerMem azp P.maxIt innerFuel 0 cur st.saReset rng
        match cur with
        | none => Py.lift (.raise .typeError)
        | some c => do
          let L ← Mem.read c
          if P.repsBeforeTermination ≤ (visited.count L : Int) then pure (some c, visited, st, rng)
          else
            let t := t * cooling
            let st := st.saSetTemperature t
            if st.saMoveMade then
              saOuterMem P cooling innerFuel fuel t nm (some c) (visited ++ [L])
                (st.saSetMoveMade false) rng
            else
              saOuterMem P cooling innerFuel fuel t (nm + 1) (some c) (visited ++ [L]) st rng
    else pure (cur, visited, st, rng)

end

/-- `AZPSimulatedAnnealing.fit_from_scipy_sparse_matrix` (azp.py 615-662): `self.labels_ = initial_labels`
does not copy. -/
def saFitMem {n : Nat} {ρ : Type} (o : MstOrder) (expf : ℚ → ℚ) (obj : ObjectiveMem ρ)
    (outerFuel innerFuel azpFuel : Nat) (P : SaParams) (self : SaObj) (adj : Adj n)
    (attr : Fin n → ρ) (nRegions : Int) (initial : Option Addr) (cooling : ℚ)
    (rng : Rng) : Py Mem (Option Addr × SaObj × Strat n 0 × Rng) :=
  if ¬ (0 < cooling ∧ cooling < 1) then
    Py.lift (.raise (.valueError
      "The cooling_factor argument must be greater than 0 and less than 1"))
  else do
    let st ← Py.lift (newSaStrategy (n := n) (q := 0) P.initTemperature P.saMovesTerm)
    let (L, visited, st, rng) ← saOuterMem
      (fun cur st rng => azpFitMem o expf obj azpFuel adj attr nRegions cur st rng)
      P cooling innerFuel outerFuel P.initTemperature 0 initial self.visited
      (st.saSetMoveMade self.moveMade) rng
    pure (L, ⟨visited, st.saMoveMade⟩, st, rng)

/-! ### The local search phase of the max-p heuristic -/

/-- What `MaxPRegionsHeu` uses of its local search object. -/
structure LocalSearchMem (ς : Type) (n q : Nat) where
  wrap : (Fin n → Fin q → ℚ) → (Fin q → ℚ) → ς → ς
  fit : Int → Addr → ς → Rng → Py Mem (Option Addr × ς × Rng)

section
variable {ς : Type} {n q : Nat} {ρ : Type} (ls : LocalSearchMem ς n q) (obj : ObjectiveMem ρ)
  (attr : Fin n → ρ) (maxP : Nat)

/-- The inner loop of the local search phase (heuristics.py 111-122): `best_partition` is the array
`local_search.labels_` itself. -/
def searchInnerMem : List (List (List (Fin n))) → Option (Addr × ℚ) → ς → Rng →
    Py Mem (Option (Addr × ℚ) × ς × Rng)
  | [], best, st, r => pure (best, st, r)
  | p :: ps, best, st, r => do
    let init ← Py.lift (labelsOfPartition p)
    let i ← Mem.new (arrayList init)
    let (out, st, r) ← ls.fit maxP i st r
    match out with
    | none => Py.lift (.raise .typeError)
    | some L => do
      let v ← obj.call L attr
      let best := match best with
        | none => some (L, v)
        | some (L', v') => if v < v' then some (L, v) else some (L', v')
      searchInnerMem ps best st r

/-- The outer loop (heuristics.py 103-123). -/
def searchOuterMem (spat : Fin n → Fin q → ℚ) (thr : Fin q → ℚ)
    (feasible : List (List (List (Fin n)))) :
    List (List (List (Fin n))) → Option (Addr × ℚ) → ς → Rng → Py Mem (Option (Addr × ℚ) × ς × Rng)
  | [], best, st, r => pure (best, st, r)
  | _ :: rounds, best, st, r => do
    let (best, st, r) ← searchInnerMem ls obj attr maxP feasible best (ls.wrap spat thr st) r
    searchOuterMem spat thr feasible rounds best st r

end

/-- `MaxPRegionsHeu.fit_from_scipy_sparse_matrix` (heuristics.py 39-123). -/
def maxpFitMem {ς : Type} {n q : Nat} {ρ : Type} (ls : LocalSearchMem ς n q) (metric : ρ → ρ → ℚ)
    (obj : ObjectiveMem ρ) (adj : Adj n) (attr : Fin n → ρ) (spat : Fin n → Fin q → ℚ)
    (thr : Fin q → ℚ) (maxIt : Nat) (st : ς) (r : Rng) :
    Py Mem (Nat × Option Addr × ς × Rng) := do
  let (maxP, kept, r) ← Py.lift (construct metric adj attr spat thr maxIt 0 [] r)
  let (feasible, r) ← Py.lift (assignAll metric adj attr kept r)
  let (best, st, r) ← searchOuterMem ls obj attr maxP spat thr feasible feasible none st r
  pure (maxP, best.map Prod.fst, st, r)

/-- `AZP(allow_move_strategy)` as local search. -/
def azpSearchMem {n q : Nat} {ρ : Type} (o : MstOrder) (expf : ℚ → ℚ) (obj : ObjectiveMem ρ)
    (fuel : Nat) (adj : Adj n) (attr : Fin n → ρ) : LocalSearchMem (Strat n q) n q where
  wrap spat thr st := .maxp spat thr 0 st
  fit p init st r := do
    let (L, st, r) ← azpFitMem o expf obj fuel adj attr p (some init) st r
    pure (some L, st, r)

/-- `AZPBasicTabu` as local search. -/
def basicTabuSearchMem {n q : Nat} {ρ : Type} (o : MstOrder) (expf : ℚ → ℚ) (obj : ObjectiveMem ρ)
    (fuel : Nat) (len : Option Nat) (reps : Int) (adj : Adj n) (attr : Fin n → ρ) :
    LocalSearchMem (Strat n q) n q where
  wrap spat thr st := .maxp spat thr 0 st
  fit p init st r := do
    let (L, st, r) ← basicTabuFitMem o expf obj fuel len reps adj attr p (some init) st r
    pure (some L, st, r)

/-- `AZPReactiveTabu` as local search. -/
def reactiveTabuSearchMem {n q : Nat} {ρ : Type} (o : MstOrder) (expf : ℚ → ℚ) (obj : ObjectiveMem ρ)
    (searchIt : Nat) (k1 k2 : Int) (adj : Adj n) (attr : Fin n → ρ) :
    LocalSearchMem (ReactSelf (Strat n q)) n q where
  wrap spat thr self := { self with strat := .maxp spat thr 0 self.strat }
  fit p init self r := do
    let (L, self, r) ← reactiveTabuFitMem o expf obj searchIt k1 k2 adj attr p (some init) self r
    pure (some L, self, r)

/-- `AZPSimulatedAnnealing` as local search. -/
def saSearchMem {n q : Nat} {ρ : Type} (o : MstOrder) (expf : ℚ → ℚ) (obj : ObjectiveMem ρ)
    (outerFuel innerFuel azpFuel : Nat) (P : SaParams) (adj : Adj n) (attr : Fin n → ρ) :
    LocalSearchMem SaObj n q where
  wrap _ _ self := self
  fit p init self r := do
    let (L, self, _, r) ← saFitMem o expf obj outerFuel innerFuel azpFuel P self adj attr p
      (some init) (85 / 100) r
    pure (L, self, r)

end Region
