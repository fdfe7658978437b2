import Verif.Model.AzpSa
import Verif.Model.AzpTabu
/-
Model of `/repo/region/max_p_regions/heuristics.py` (class `MaxPRegionsHeu`).

A Python set of areas is a list without repetitions (the order of insertion); the elements of a set
are only summed over, tested for membership or chosen from at random, so the order does not matter.
The threshold is given per column of the spatially extensive attributes (a single number is the same
threshold for the only column).
-/
namespace Region

/-- `lst.remove(x)`: removes the first occurrence, `ValueError` if there is none. -/
def listRemove {α : Type} [DecidableEq α] (lst : List α) (x : α) : Res (List α) :=
  if lst.contains x then .ok (lst.erase x)
  else .raise (.valueError "list.remove(x): x not in list")

/-- `for area in region: assigned_areas.remove(area)` (heuristics.py 405-406). -/
def removeAll {α : Type} [DecidableEq α] : List α → List α → Res (List α)
  | [], lst => .ok lst
  | x :: xs, lst => do
    let lst ← listRemove lst x
    removeAll xs lst

section
variable {n q : Nat} {ρ : Type} (metric : ρ → ρ → ℚ) (adj : Adj n) (attr : Fin n → ρ)
  (spat : Fin n → Fin q → ℚ) (thr : Fin q → ℚ)

/-- `sum(self.metric(attr[area], attr[area2]) for area2 in region)` (heuristics.py 431-433 and
510-512). -/
def dissimTo (area : Fin n) (region : List (Fin n)) : ℚ :=
  (region.map fun area2 => metric (attr area) (attr area2)).sum

/-- `find_best_area` (heuristics.py 412-440).  `min` is evaluated in the condition of the
comprehension, so not at all if there is no candidate; `random_element_from` raises then. -/
def findBestArea (region cands : List (Fin n)) (r : Rng) : Res (Fin n × Rng) :=
  randomElementFrom
    (cands.filter fun area => decide
      ((cands.map fun c => dissimTo metric attr c region).min? =
        some (dissimTo metric attr area region))) r

/-- `(s >= threshold).all()`, the negation of `(s < threshold).any()`. -/
def reaches (s : Fin q → ℚ) : Bool := (List.finRange q).all fun j => decide (thr j ≤ s j)

/-- What the inner loop of `grow_regions` leaves behind: the flag `feasible`, the region, and the
lists `unassigned_areas` and `assigned_areas`. -/
structure Grown (n : Nat) where
  feasible : Bool
  region : List (Fin n)
  unassigned : List (Fin n)
  assigned : List (Fin n)

/-- The `while (spat_ext_attr < threshold).any()` loop (heuristics.py 387-407); `cands` is the set
`unassigned_neighs`, `s` the array `spat_ext_attr`.  The first argument is the number of iterations
observed; it is called with one more than the number of unassigned areas. -/
def growInner : Nat → List (Fin n) → List (Fin n) → (Fin q → ℚ) → List (Fin n) → List (Fin n) →
    Rng → Res (Grown n × Rng)
  | fuel, region, cands, s, unassigned, assigned, r =>
    if reaches thr s then .ok (⟨true, region, unassigned, assigned⟩, r)
    else
      match fuel with
      | 0 => .timeout
      | fuel + 1 =>
        if cands = [] then do
          let assigned ← removeAll region assigned
          .ok (⟨false, region, unassigned, assigned⟩, r)
        else do
          let (neigh, r) ← findBestArea metric attr region cands r
          -- region.add; unassigned_neighs.remove / update / difference_update
          let region := region ++ [neigh]
          let cands := (List.finRange n).filter fun v =>
            ((cands.erase neigh).contains v || adj neigh v) && !assigned.contains v
          let unassigned ← listRemove unassigned neigh
          growInner fuel region cands (fun j => s j + spat neigh j) unassigned
            (assigned ++ [neigh]) r

/-- The `while unassigned_areas` loop (heuristics.py 376-409).  The first argument is the number of
iterations observed; it is called with the number of areas. -/
def growLoop : Nat → List (List (Fin n)) → List (Fin n) → List (Fin n) → List (Fin n) → Rng →
    Res ((List (List (Fin n)) × List (Fin n)) × Rng)
  | _, partition, enclaves, [], _, r => .ok ((partition, enclaves), r)
  | 0, _, _, _ :: _, _, _ => .timeout
  | fuel + 1, partition, enclaves, x :: xs, assigned, r => do
    let (area, unassigned, r) ← popRandomlyFrom (x :: xs) r
    let assigned := assigned ++ [area]
    if reaches thr (spat area) then
      growLoop fuel (partition ++ [[area]]) enclaves unassigned assigned r
    else do
      let cands := (List.finRange n).filter fun v => adj area v && !assigned.contains v
      let (g, r) ← growInner metric adj attr spat thr (unassigned.length + 1) [area] cands
        (spat area) unassigned assigned r
      if g.feasible then
        growLoop fuel (partition ++ [g.region]) enclaves g.unassigned g.assigned r
      else growLoop fuel partition (enclaves ++ g.region) g.unassigned g.assigned r

/-- `grow_regions` (heuristics.py 345-410). -/
def growRegions (r : Rng) : Res ((List (List (Fin n)) × List (Fin n)) × Rng) :=
  growLoop metric adj attr spat thr n [] [] (List.finRange n) [] r

/-- The `for neigh in neigh_dict[area]` loop of `assign_enclaves` (heuristics.py 473-479): the indices
found; a `LookupError` is swallowed. -/
def neighRegions (partition : List (List (Fin n))) : List (Fin n) → Res (List Nat)
  | [] => .ok []
  | v :: vs =>
    match findSublistIdx v partition 0 with
    | .ok i => do
      let rest ← neighRegions partition vs
      .ok (i :: rest)
    | .raise .lookupError => neighRegions partition vs
    | .raise e => .raise e
    | .timeout => .timeout

/-- `find_best_region_idx` (heuristics.py 486-520).  The dict comprehension removes repeated
indices; `min` raises `ValueError` if there is none. -/
def findBestRegionIdx (area : Fin n) (partition : List (List (Fin n))) (idxs : List Nat) (r : Rng) :
    Res (Nat × Rng) :=
  let keys := idxs.eraseDups
  let d : Nat → ℚ := fun i => dissimTo metric attr area (partition.getD i [])
  match (keys.map d).min? with
  | none => .raise (.valueError "min() arg is an empty sequence")
  | some m => randomElementFrom (keys.filter fun i => decide (d i = m)) r

/-- `partition[region_idx].add(area)` (heuristics.py 482). -/
def addTo (partition : List (List (Fin n))) (i : Nat) (area : Fin n) :
    Res (List (List (Fin n))) :=
  if i < partition.length then
    .ok (partition.modify i fun reg => if reg.contains area then reg else reg ++ [area])
  else .raise .indexError

/-- `assign_enclaves` (heuristics.py 442-484) with `neigh_dict` the neighbors dict of the weights
object made from `adj` (line 77-78).  The first argument is the number of iterations observed; it is
called with the number of enclaves. -/
def assignLoop : Nat → List (List (Fin n)) → List (Fin n) → Rng →
    Res (List (List (Fin n)) × Rng)
  | _, partition, [], r => .ok (partition, r)
  | 0, _, _ :: _, _ => .timeout
  | fuel + 1, partition, e :: es, r => do
    let enclaves := e :: es
    let neighborsOfAssigned := enclaves.filter fun area =>
      (neighbors adj area).any fun v => !enclaves.contains v
    let (area, _, r) ← popRandomlyFrom neighborsOfAssigned r
    let idxs ← neighRegions partition (neighbors adj area)
    let (i, r) ← findBestRegionIdx metric attr area partition idxs r
    let partition ← addTo partition i area
    let enclaves ← listRemove enclaves area
    assignLoop fuel partition enclaves r

/-- `assign_enclaves` (heuristics.py 442-484). -/
def assignEnclaves (partition : List (List (Fin n))) (enclaves : List (Fin n)) (r : Rng) :
    Res (List (List (Fin n)) × Rng) :=
  assignLoop metric adj attr enclaves.length partition enclaves r

/-- The construction phase (heuristics.py 88-97): `max_p` and
`partitions_before_enclaves_assignment`. -/
def construct : Nat → Nat → List (List (List (Fin n)) × List (Fin n)) → Rng →
    Res (Nat × List (List (List (Fin n)) × List (Fin n)) × Rng)
  | 0, maxP, kept, r => .ok (maxP, kept, r)
  | it + 1, maxP, kept, r => do
    let (pe, r) ← growRegions metric adj attr spat thr r
    if maxP < pe.1.length then construct it pe.1.length [pe] r
    else if pe.1.length = maxP then construct it maxP (kept ++ [pe]) r
    else construct it maxP kept r

/-- The loop calling `assign_enclaves` (heuristics.py 99-101): `feasible_partitions`. -/
def assignAll : List (List (List (Fin n)) × List (Fin n)) → Rng →
    Res (List (List (List (Fin n))) × Rng)
  | [], r => .ok ([], r)
  | pe :: rest, r => do
    let (p, r) ← assignEnclaves metric adj attr pe.1 pe.2 r
    let (ps, r) ← assignAll rest r
    .ok (p :: ps, r)

end

/-- `array_from_region_list(partition)` as an array of the `n` areas' labels.  The array has as many
entries as the regions have areas; it is `n` for every partition that reaches this point
(`labelsOfPartition_spec`), the other case is not modelled further than "an exception". -/
def labelsOfPartition {n : Nat} (partition : List (List (Fin n))) : Res (Labels n) := do
  let l ← arrayFromRegionList (partition.map fun reg => reg.map Fin.val)
  if h : l.length = n then .ok fun i => ((l.get ⟨i.val, by omega⟩ : Nat) : Int)
  else .raise .indexError

/-- What `MaxPRegionsHeu` uses of its local search object: `wrap` is the assignment
`allow_move_strategy = AllowMoveAZPMaxPRegions(…, allow_move_strategy)` (heuristics.py 108-110),
`fit` the call of `fit_from_scipy_sparse_matrix` (112-117) giving `labels_` (`none` is `None`); the
adjacency matrix, the attributes and the objective function do not change and are left out. -/
structure LocalSearch (ς : Type) (n q : Nat) where
  wrap : (Fin n → Fin q → ℚ) → (Fin q → ℚ) → ς → ς
  fit : Int → Labels n → ς → Rng → Res (Option (Labels n) × ς × Rng)

section
variable {ς : Type} {n q : Nat} {ρ : Type} (ls : LocalSearch ς n q) (obj : Objective ρ)
  (attr : Fin n → ρ) (maxP : Nat)

/-- The inner loop of the local search phase (heuristics.py 111-122); `best` is `best_partition`
with `best_obj_value` (`none`: `None` and `inf`). -/
def searchInner : List (List (List (Fin n))) → Option (Labels n × ℚ) → ς → Rng →
    Res (Option (Labels n × ℚ) × ς × Rng)
  | [], best, st, r => .ok (best, st, r)
  | p :: ps, best, st, r => do
    let init ← labelsOfPartition p
    let (out, st, r) ← ls.fit maxP init st r
    match out with
    | none => .raise .typeError            -- `objective_func(None, attr)`
    | some L =>
      let v := obj.call L attr
      let best := match best with
        | none => some (L, v)
        | some (L', v') => if v < v' then some (L, v) else some (L', v')
      searchInner ps best st r

/-- The outer loop (heuristics.py 103-123); `rounds` is the list over which the outer `for` iterates
(only its length matters). -/
def searchOuter (spat : Fin n → Fin q → ℚ) (thr : Fin q → ℚ)
    (feasible : List (List (List (Fin n)))) :
    List (List (List (Fin n))) → Option (Labels n × ℚ) → ς → Rng →
    Res (Option (Labels n × ℚ) × ς × Rng)
  | [], best, st, r => .ok (best, st, r)
  | _ :: rounds, best, st, r => do
    let (best, st, r) ← searchInner ls obj attr maxP feasible best (ls.wrap spat thr st) r
    searchOuter spat thr feasible rounds best st r

end

/-- `MaxPRegionsHeu.fit_from_scipy_sparse_matrix` (heuristics.py 39-123): `max_p`, the value assigned
to `labels_` (`none`: `labels_` is not assigned, which happens for `max_it = 0`), and the local search
object afterwards.  `metric` is `objective_func.metric`.  A new `AZP()` (line 107) reseeds the random
generator; the tape covers every outcome. -/
def maxpFit {ς : Type} {n q : Nat} {ρ : Type} (ls : LocalSearch ς n q) (metric : ρ → ρ → ℚ)
    (obj : Objective ρ) (adj : Adj n) (attr : Fin n → ρ) (spat : Fin n → Fin q → ℚ)
    (thr : Fin q → ℚ) (maxIt : Nat) (st : ς) (r : Rng) :
    Res (Nat × Option (Labels n) × ς × Rng) := do
  let (maxP, kept, r) ← construct metric adj attr spat thr maxIt 0 [] r
  let (feasible, r) ← assignAll metric adj attr kept r
  let (best, st, r) ← searchOuter ls obj attr maxP spat thr feasible feasible none st r
  .ok (maxP, best.map Prod.fst, st, r)

/-- `AZP(allow_move_strategy)` as local search; the object's state is its strategy.  The decorator's
`objective_val` does not exist before `start_new_component`; 0 stands for that. -/
def azpSearch {n q : Nat} {ρ : Type} (o : MstOrder) (expf : ℚ → ℚ) (obj : Objective ρ) (fuel : Nat)
    (adj : Adj n) (attr : Fin n → ρ) : LocalSearch (Strat n q) n q where
  wrap spat thr st := .maxp spat thr 0 st
  fit p init st r := do
    let (L, st, r) ← azpFit o expf obj fuel adj attr p (some init) st r
    .ok (some L, st, r)

/-- `AZPBasicTabu(tabu_length, repetitions_before_termination)` as local search. -/
def basicTabuSearch {n q : Nat} {ρ : Type} (o : MstOrder) (expf : ℚ → ℚ) (obj : Objective ρ)
    (fuel : Nat) (len : Option Nat) (reps : Int) (adj : Adj n) (attr : Fin n → ρ) :
    LocalSearch (Strat n q) n q where
  wrap spat thr st := .maxp spat thr 0 st
  fit p init st r := do
    let (L, st, r) ← basicTabuFit o expf obj fuel len reps adj attr p (some init) st r
    .ok (some L, st, r)

/-- `AZPReactiveTabu(max_iterations, k1, k2)` as local search; the object keeps its list `visited` from
one call of `fit` to the next. -/
def reactiveTabuSearch {n q : Nat} {ρ : Type} (o : MstOrder) (expf : ℚ → ℚ) (obj : Objective ρ)
    (searchIt : Nat) (k1 k2 : Int) (adj : Adj n) (attr : Fin n → ρ) :
    LocalSearch (ReactSelf (Strat n q)) n q where
  wrap spat thr self := { self with strat := .maxp spat thr 0 self.strat }
  fit p init self r := do
    let (L, self, r) ← reactiveTabuFit o expf obj searchIt k1 k2 adj attr p (some init) self r
    .ok (some L, self, r)

/-- `AZPSimulatedAnnealing(…)` as local search (with the default cooling factor 0.85).  `fit` begins by
assigning a new strategy to `allow_move_strategy` (azp.py 619-622), so what `wrap` stores there is
never used. -/
def saSearch {n q : Nat} {ρ : Type} (o : MstOrder) (expf : ℚ → ℚ) (obj : Objective ρ)
    (outerFuel innerFuel azpFuel : Nat) (P : SaParams) (adj : Adj n) (attr : Fin n → ρ) :
    LocalSearch SaObj n q where
  wrap _ _ self := self
  fit p init self r := do
    let (L, self, _, r) ← saFit o expf obj outerFuel innerFuel azpFuel P self adj attr p
      (some init) (85 / 100) r
    .ok (L, self, r)

end Region
