import Verif.Model.MaxPHeu
import Verif.Model.SparseAzp
/-
`MaxPRegionsHeu` of `/repo/region/max_p_regions/heuristics.py` on an adjacency matrix with stored values
(see `Verif/Model/Sparse.lean`).  The definitions repeat the ones of `Verif/Model/MaxPHeu.lean` with the
functions of `Csr` where the matrix is used: growing regions reads `adj[area].nonzero()[1]`, assigning the
enclaves reads the dict of the weights object `weights.WSP(adj).to_W()`, the local search reads what the
classes of azp.py read.

What libpysal does is assumed: `to_W` slices the arrays `indices` and `indptr` of the matrix, so the
neighbors of an area in the weights object are the stored columns of its row, stored zeros included.
-/
namespace Region.Csr

open Region

/-- `weights.WSP(adj).to_W().neighbors[area]` (heuristics.py 77-78). -/
def storedNeighbors {n : Nat} (A : Csr n) (area : Fin n) : List (Fin n) := (A.rows area).map Prod.fst

section
variable {n q : Nat} {ρ : Type} (metric : ρ → ρ → ℚ) (A : Csr n) (attr : Fin n → ρ)
  (spat : Fin n → Fin q → ℚ) (thr : Fin q → ℚ)

/-- The `while (spat_ext_attr < threshold).any()` loop (heuristics.py 387-407). -/
def growInner : Nat → List (Fin n) → List (Fin n) → (Fin q → ℚ) → List (Fin n) → List (Fin n) →
    Rng → Res (Grown n × Rng)
  | fuel, region, cands, s, unassigned, assigned, r =>
    if reaches thr s then .ok (⟨true, region, unassigned, assigned⟩, r)
    else
      match fuel with
      | 0 => .timeout
      | fuel + 1 =>
        if cands = [] then do
          let assigned ← removeAll region assigned
          .ok (⟨false, region, unassigned, assigned⟩, r)
        else do
          let (neigh, r) ← findBestArea metric attr region cands r
          let region := region ++ [neigh]
          let cands := (List.finRange n).filter fun v =>
            ((cands.erase neigh).contains v || (A.neighbors neigh).contains v) && !assigned.contains v
          let unassigned ← listRemove unassigned neigh
          growInner fuel region cands (fun j => s j + spat neigh j) unassigned
            (assigned ++ [neigh]) r

/-- The `while unassigned_areas` loop (heuristics.py 376-409). -/
def growLoop : Nat → List (List (Fin n)) → List (Fin n) → List (Fin n) → List (Fin n) → Rng →
    Res ((List (List (Fin n)) × List (Fin n)) × Rng)
  | _, partition, enclaves, [], _, r => .ok ((partition, enclaves), r)
  | 0, _, _, _ :: _, _, _ => .timeout
  | fuel + 1, partition, enclaves, x :: xs, assigned, r => do
    let (area, unassigned, r) ← popRandomlyFrom (x :: xs) r
    let assigned := assigned ++ [area]
    if reaches thr (spat area) then
      growLoop fuel (partition ++ [[area]]) enclaves unassigned assigned r
    else do
      let cands := (List.finRange n).filter fun v =>
        (A.neighbors area).contains v && !assigned.contains v
      let (g, r) ← growInner metric A attr spat thr (unassigned.length + 1) [area] cands
        (spat area) unassigned assigned r
      if g.feasible then
        growLoop fuel (partition ++ [g.region]) enclaves g.unassigned g.assigned r
      else growLoop fuel partition (enclaves ++ g.region) g.unassigned g.assigned r

/-- `grow_regions` (heuristics.py 345-410). -/
def growRegions (r : Rng) : Res ((List (List (Fin n)) × List (Fin n)) × Rng) :=
  growLoop metric A attr spat thr n [] [] (List.finRange n) [] r

/-- The loop of `assign_enclaves` (heuristics.py 464-483). -/
def assignLoop : Nat → List (List (Fin n)) → List (Fin n) → Rng →
    Res (List (List (Fin n)) × Rng)
  | _, partition, [], r => .ok (partition, r)
  | 0, _, _ :: _, _ => .timeout
  | fuel + 1, partition, e :: es, r => do
    let enclaves := e :: es
    let neighborsOfAssigned := enclaves.filter fun area =>
      (A.storedNeighbors area).any fun v => !enclaves.contains v
    let (area, _, r) ← popRandomlyFrom neighborsOfAssigned r
    let idxs ← neighRegions partition (A.storedNeighbors area)
    let (i, r) ← findBestRegionIdx metric attr area partition idxs r
    let partition ← addTo partition i area
    let enclaves ← listRemove enclaves area
    assignLoop fuel partition enclaves r

/-- `assign_enclaves` (heuristics.py 442-484). -/
def assignEnclaves (partition : List (List (Fin n))) (enclaves : List (Fin n)) (r : Rng) :
    Res (List (List (Fin n)) × Rng) :=
  assignLoop metric A attr enclaves.length partition enclaves r

/-- The construction phase (heuristics.py 88-97). -/
def construct : Nat → Nat → List (List (List (Fin n)) × List (Fin n)) → Rng →
    Res (Nat × List (List (List (Fin n)) × List (Fin n)) × Rng)
  | 0, maxP, kept, r => .ok (maxP, kept, r)
  | it + 1, maxP, kept, r => do
    let (pe, r) ← growRegions metric A attr spat thr r
    if maxP < pe.1.length then construct it pe.1.length [pe] r
    else if pe.1.length = maxP then construct it maxP (kept ++ [pe]) r
    else construct it maxP kept r

/-- The loop calling `assign_enclaves` (heuristics.py 99-101). -/
def assignAll : List (List (List (Fin n)) × List (Fin n)) → Rng →
    Res (List (List (List (Fin n))) × Rng)
  | [], r => .ok ([], r)
  | pe :: rest, r => do
    let (p, r) ← assignEnclaves metric A attr pe.1 pe.2 r
    let (ps, r) ← assignAll rest r
    .ok (p :: ps, r)

end

/-- `MaxPRegionsHeu.fit_from_scipy_sparse_matrix` (heuristics.py 39-123). -/
def maxpFit {ς : Type} {n q : Nat} {ρ : Type} (ls : LocalSearch ς n q) (metric : ρ → ρ → ℚ)
    (obj : Objective ρ) (A : Csr n) (attr : Fin n → ρ) (spat : Fin n → Fin q → ℚ)
    (thr : Fin q → ℚ) (maxIt : Nat) (st : ς) (r : Rng) :
    Res (Nat × Option (Labels n) × ς × Rng) := do
  let (maxP, kept, r) ← construct metric A attr spat thr maxIt 0 [] r
  let (feasible, r) ← assignAll metric A attr kept r
  let (best, st, r) ← searchOuter ls obj attr maxP spat thr feasible feasible none st r
  .ok (maxP, best.map Prod.fst, st, r)

/-- `AZP(allow_move_strategy)` as local search (heuristics.py 107-117). -/
def azpSearch {n q : Nat} {ρ : Type} (o : Order) (expf : ℚ → ℚ) (obj : Objective ρ) (fuel : Nat)
    (keep : Bool) (A : Csr n) (attr : Fin n → ρ) : LocalSearch (Strat n q) n q where
  wrap spat thr st := .maxp spat thr 0 st
  fit p init st r := do
    let (L, st, r) ← azpFit o expf obj fuel keep A attr p (some init) st r
    .ok (some L, st, r)

/-- `AZPBasicTabu(tabu_length, repetitions_before_termination)` as local search. -/
def basicTabuSearch {n q : Nat} {ρ : Type} (o : Order) (expf : ℚ → ℚ) (obj : Objective ρ)
    (fuel : Nat) (len : Option Nat) (reps : Int) (keep : Bool) (A : Csr n) (attr : Fin n → ρ) :
    LocalSearch (Strat n q) n q where
  wrap spat thr st := .maxp spat thr 0 st
  fit p init st r := do
    let (L, st, r) ← basicTabuFit o expf obj fuel len reps keep A attr p (some init) st r
    .ok (some L, st, r)

/-- `AZPReactiveTabu(max_iterations, k1, k2)` as local search. -/
def reactiveTabuSearch {n q : Nat} {ρ : Type} (o : Order) (expf : ℚ → ℚ) (obj : Objective ρ)
    (searchIt : Nat) (k1 k2 : Int) (keep : Bool) (A : Csr n) (attr : Fin n → ρ) :
    LocalSearch (ReactSelf (Strat n q)) n q where
  wrap spat thr self := { self with strat := .maxp spat thr 0 self.strat }
  fit p init self r := do
    let (L, self, r) ← reactiveTabuFit o expf obj searchIt k1 k2 keep A attr p (some init) self r
    .ok (some L, self, r)

/-- `AZPSimulatedAnnealing(…)` as local search (with the default cooling factor 0.85). -/
def saSearch {n q : Nat} {ρ : Type} (o : Order) (expf : ℚ → ℚ) (obj : Objective ρ)
    (outerFuel innerFuel azpFuel : Nat) (P : SaParams) (keep : Bool) (A : Csr n) (attr : Fin n → ρ) :
    LocalSearch SaObj n q where
  wrap _ _ self := self
  fit p init self r := do
    let (L, self, _, r) ← saFit o expf obj outerFuel innerFuel azpFuel P self keep A attr p
      (some init) (85 / 100) r
    .ok (L, self, r)

end Region.Csr
