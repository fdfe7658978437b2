import Mathlib.Data.Rat.Floor
import Verif.Model.Azp
/-
Model of `/repo/region/p_regions/azp.py`, classes `AZPTabu`, `AZPBasicTabu` and `AZPReactiveTabu`
(lines 708-1046).
-/
namespace Region

/-- `Move = collections.namedtuple("Move", "area old_region new_region")` (util.py 21). -/
structure Move (k : Nat) where
  area : Fin k
  old : Int
  new : Int
  deriving DecidableEq

/-- `collections.deque` of moves with its `maxlen`. -/
structure Tabu (k : Nat) where
  items : List (Move k)
  maxlen : Option Nat

/-- `deque.append`: when the deque is full the leftmost element is discarded. -/
def Tabu.append {k : Nat} (t : Tabu k) (m : Move k) : Tabu k :=
  match t.maxlen with
  | none => { t with items := t.items ++ [m] }
  | some L => { t with items := (t.items ++ [m]).drop (t.items.length + 1 - L) }

/-- `AZPTabu._make_move` (azp.py 713-725): the labels and the tabu list afterwards and the returned
flag. -/
def tabuMakeMove {k : Nat} (adj : Adj k) (area : Fin k) (newRegion : Int) (labels : Labels k)
    (tabu : Tabu k) : Res (Bool × Labels k × Tabu k) := do
  let oldRegion := labels area
  let labels1 := makeMove area newRegion labels
  let ok ← booleanAssertFeasible labels1 adj none
  if !ok then
    .ok (false, makeMove area oldRegion labels1, tabu.append ⟨area, newRegion, oldRegion⟩)
  else .ok (true, labels1, tabu.append ⟨area, newRegion, oldRegion⟩)

/-- The moves considered in step 1 of the basic (azp.py 812-826) and step 3 of the reactive version
(azp.py 949-964), in the order in which they are found. -/
def possibleMoves {k : Nat} (adj : Adj k) (labels : Labels k) (tabu : Tabu k) : List (Move k) :=
  (List.finRange k).flatMap fun area =>
    if isConnected (subAdjWo adj (whereEq labels (labels area)) [area]) &&
        decide (count (arrayList labels) (labels area) > 1) then
      ((neighbors adj area).filter fun neigh =>
        decide (labels neigh ≠ labels area) &&
          !tabu.items.contains ⟨area, labels area, labels neigh⟩).map fun neigh =>
        ⟨area, labels area, labels neigh⟩
    else []

/-- `objective_func.update(...)` as a statement. -/
def updateOf {k : Nat} {ρ : Type} (obj : Objective ρ) (attr : Fin k → ρ) (labels : Labels k)
    (m : Move k) : Res ℚ :=
  match obj.update m.area m.new labels attr with
  | none => .raise (.valueError "Found array with 0 sample(s)")
  | some d => .ok d

/-- The search for the best move (azp.py 826-831, 966-974): position, move and difference of the first
move with the smallest difference; `none` stands for `None`, `inf`. -/
def bestMove {k : Nat} {ρ : Type} (obj : Objective ρ) (attr : Fin k → ρ) (labels : Labels k) :
    List (Move k) → Nat → Option (Nat × Move k × ℚ) → Res (Option (Nat × Move k × ℚ))
  | [], _, best => .ok best
  | m :: ms, i, best => do
    let d ← updateOf obj attr labels m
    let best := match best with
      | none => some (i, m, d)
      | some (j, m', d') => if d < d' then some (i, m, d) else some (j, m', d')
    bestMove obj attr labels ms (i + 1) best

/-- The list comprehension `improving_tabus` (azp.py 841-846). -/
def improvingTabus {k : Nat} {ρ : Type} (obj : Objective ρ) (attr : Fin k → ρ) (labels : Labels k) :
    List (Move k) → Res (List (Move k))
  | [] => .ok []
  | m :: ms =>
    if labels m.area = m.old then do
      let d ← updateOf obj attr labels m
      let rest ← improvingTabus obj attr labels ms
      .ok (if d < 0 then m :: rest else rest)
    else improvingTabus obj attr labels ms

/-- The variables of the loop of `AZPBasicTabu._azp_connected_component`. -/
structure TabuState (σ : Type) (k : Nat) where
  labels : Labels k
  tabu : Tabu k
  visited : List (List Int)
  stop : Bool
  strat : σ
  rng : Rng

section Basic
variable {σ : Type} {k : Nat} {ρ : Type} (ops : StratOps σ k) (obj : Objective ρ) (attr : Fin k → ρ)
  (adj : Adj k)

/-- `if self.allow_move_strategy(…): self._make_move(…)`; the flag is the answer of the strategy. -/
def tryMove (m : Move k) (s : TabuState σ k) : Res (Bool × TabuState σ k) := do
  let (allowed, strat, rng) ← ops.call s.strat m.area m.new s.labels s.rng
  let s := { s with strat := strat, rng := rng }
  if allowed then do
    let (_, labels, tabu) ← tabuMakeMove adj m.area m.new s.labels s.tabu
    .ok (true, { s with labels := labels, tabu := tabu })
  else .ok (false, s)

/-- Step 3 (azp.py 838-853): the aspiration move. -/
def aspiration (s : TabuState σ k) : Res (TabuState σ k) := do
  let moves ← improvingTabus obj attr s.labels s.tabu.items
  if moves = [] then .ok s
  else do
    let (m, rng) ← randomElementFrom moves s.rng
    let (_, s) ← tryMove ops adj m { s with rng := rng }
    .ok s

/-- Steps 3 and 4 (azp.py 837-866); the flag says that the loop is left. -/
def basicElse (best : Option (Nat × Move k × ℚ)) (s : TabuState σ k) :
    Res (Bool × TabuState σ k) := do
  let s ← aspiration ops obj attr adj s
  if s.stop then .ok (true, s)
  else
    match best with
    | none => .ok (false, s)
    | some (_, m, _) => do
      let (_, s) ← tryMove ops adj m s
      .ok (false, s)

/-- One round of the `while True` loop (azp.py 802-866). -/
def basicRound (s : TabuState σ k) : Res (Bool × TabuState σ k) := do
  let best ← bestMove obj attr s.labels (possibleMoves adj s.labels s.tabu) 0 none
  match best with
  | none => basicElse ops obj attr adj best s
  | some (_, m, d) =>
    if d ≤ 0 then do
      let (allowed, s) ← tryMove ops adj m s
      if allowed then .ok (false, s) else basicElse ops obj attr adj best s
    else basicElse ops obj attr adj best s

/-- The bookkeeping at the start of a round (azp.py 803-808). -/
def noteVisit (reps : Int) (s : TabuState σ k) : TabuState σ k :=
  { s with
    stop := s.stop || decide (reps ≤ (s.visited.count (arrayList s.labels) : Int)),
    visited := s.visited ++ [arrayList s.labels] }

/-- The `while True` loop (azp.py 802-866). -/
def basicLoop (reps : Int) : Nat → TabuState σ k → Res (TabuState σ k)
  | 0, _ => .timeout
  | fuel + 1, s => do
    let (done, s) ← basicRound ops obj attr adj (noteVisit reps s)
    if done then .ok s else basicLoop reps fuel s

/-- `AZPBasicTabu._azp_connected_component` (azp.py 765-861) with `tabu_length` `len` and
`repetitions_before_termination` `reps`. -/
def basicComponent (len : Option Nat) (reps : Int) (fuel : Nat) (init : Labels k) (strat : σ)
    (rng : Rng) : Res (Labels k × σ × Rng) :=
  if (uniqueSorted (arrayList init)).length = 1 then .ok (init, strat, rng)
  else do
    let s ← basicLoop ops obj attr adj reps fuel
      { labels := init, tabu := ⟨[], len⟩, visited := [], stop := false, strat := strat, rng := rng }
    .ok (s.labels, s.strat, s.rng)

end Basic

/-- `deque([], tabu_length)` in the constructor (azp.py 759): a negative length is a `ValueError`. -/
def newTabuLength : Option Int → Res (Option Nat)
  | none => .ok none
  | some l => if l < 0 then .raise (.valueError "maxlen must be non-negative")
    else .ok (some l.toNat)

/-- `AZPBasicTabu(tabu_length, reps).fit(...)` with the library's strategies. -/
def basicTabuFit {n q : Nat} {ρ : Type} (o : MstOrder) (expf : ℚ → ℚ) (obj : Objective ρ)
    (fuel : Nat) (len : Option Nat) (reps : Int) (adj : Adj n) (attr : Fin n → ρ) (nRegions : Int)
    (initialLabels : Option (Labels n)) (strat : Strat n q) (rng : Rng) :
    Res (Labels n × Strat n q × Rng) :=
  fitWith o adj attr (fun idx a init at' st rng =>
    basicComponent (Strat.ops expf (fun i => idx.get i) at' obj) obj at' a len reps fuel init
      (st.start (obj.call init at')) rng) nRegions initialLabels strat rng

/-! ### Reactive tabu -/

/-- The attributes of an `AZPReactiveTabu` object that survive `_azp_connected_component`
(azp.py 894-905) together with the strategy and the random generator. -/
structure ReactObj (σ : Type) where
  visited : List (List Int)
  avg : ℚ
  repCounter : Nat
  strat : σ
  rng : Rng

/-- What the last completed round did: step 10, or step 11 with the saved labels. -/
inductive LastStep
  | ten
  | eleven (saved : List Int)

/-- The constructor's test of `max_iterations` (azp.py 899-900). -/
def newReactMaxIt (maxIt : Int) : Res Nat :=
  if maxIt ≤ 0 then .raise (.valueError "The `max_iterations` argument must be > 0.")
  else .ok maxIt.toNat

section React
variable {σ : Type} {k : Nat} {ρ : Type} (ops : StratOps σ k) (obj : Objective ρ) (attr : Fin k → ρ)
  (adj : Adj k)

/-- `cycle` (azp.py 990-992): the visited labellings from the last occurrence of `lt` on. -/
def lastCycle (visited : List (List Int)) (lt : List Int) : List (List Int) :=
  visited.drop (visited.length - (visited.reverse.idxOf lt + 1))

/-- The loop counting occurrences of the cycle (azp.py 997-1001); it stops at `k2`. -/
def cycleCount (visited cycle : List (List Int)) (k2 : Int) : List Nat → Int → Int
  | [], c => c
  | i :: is, c =>
    if (visited.drop i).take cycle.length = cycle then
      if k2 ≤ c + 1 then c + 1 else cycleCount visited cycle k2 is (c + 1)
    else cycleCount visited cycle k2 is c

/-- The random moves of step 11 (azp.py 1015-1019). -/
def randomMoves : Nat → List (Move k) → TabuState σ k → Res (TabuState σ k)
  | 0, _, s => .ok s
  | p + 1, moves, s => do
    let (m, moves, rng) ← popRandomlyFrom moves s.rng
    let (_, s) ← tryMove ops adj m { s with rng := rng }
    randomMoves p moves s

/-- One execution of the loop body from step 3 on (azp.py 947-1036).  In `s` the fields `labels`,
`tabu`, `strat`, `rng` are the ones of the code, `visited` is `self.visited`; the field `stop` is not
used. -/
def reactRound (k1 k2 : Int) (avg : ℚ) (s : TabuState σ k) :
    Res (LastStep × TabuState σ k) := do
  let moves := possibleMoves adj s.labels s.tabu
  let best ← bestMove obj attr s.labels moves 0 none
  match best with
  | none => .raise .attributeError        -- `best_move.area` with `best_move = None`
  | some (idx, m, _) => do
    let (_, s) ← tryMove ops adj m s
    let lt := arrayList s.labels
    if s.visited.contains lt then
      let cycle := lastCycle s.visited lt
      if k1 < (s.visited.count lt : Int) then
        let found := if 0 < k2 then
            cycleCount s.visited cycle k2 (List.range (s.visited.length - cycle.length)) 0
          else 0
        if k2 ≤ found then do
          let s' ← randomMoves ops adj (⌊1 + avg / 2⌋).toNat (moves.eraseIdx idx)
            { s with visited := [] }
          .ok (.eleven lt, s')
        else
          .raise .typeError    -- `deque(self.tabu, 1.1 * maxlen)`: a float is not a valid length
      else .ok (.ten, { s with visited := s.visited ++ [lt] })
    else .ok (.ten, { s with visited := s.visited ++ [lt] })

/-- The loop (azp.py 940-1037).  The first argument is the number of iterations left, `start` is
`obj_val_start`. Because step 8 always raises, `avg_it_until_rep`, `rep_counter` and the length of the
tabu list never change. -/
def reactLoop (k1 k2 : Int) (avg : ℚ) : Nat → Option ℚ → Option LastStep → TabuState σ k →
    Res (Option LastStep × TabuState σ k)
  | 0, _, last, s => .ok (last, s)
  | it + 1, start, last, s =>
    let stop := obj.call s.labels attr
    if improving start stop then do
      let (l, s) ← reactRound ops obj attr adj k1 k2 avg s
      reactLoop k1 k2 avg it (some stop) (some l) s
    else .ok (last, s)

/-- The choice of the result (azp.py 1039-1046). -/
def reactResult (visited : List (List Int)) : Option LastStep → Res (List Int)
  | none => .raise .unboundLocalError
  | some .ten =>
    match visited.reverse with
    | _ :: b :: _ => .ok b
    | [a] => .ok a
    | [] => .raise .indexError
  | some (.eleven saved) => .ok saved

/-- `AZPReactiveTabu._azp_connected_component` (azp.py 907-1046): the returned array as a list. -/
def reactComponentList (maxIt : Nat) (k1 k2 : Int) (init : Labels k) (self : ReactObj σ) :
    Res (List Int × ReactObj σ) :=
  if (uniqueSorted (arrayList init)).length = 1 then .ok (arrayList init, self)
  else do
    let (last, s) ← reactLoop ops obj attr adj k1 k2 self.avg maxIt none none
      { labels := init, tabu := ⟨[], some 1⟩, visited := self.visited, stop := false,
        strat := self.strat, rng := self.rng }
    let out ← reactResult s.visited last
    .ok (out, { self with visited := s.visited, strat := s.strat, rng := s.rng })

end React

/-- `labels[comp_idx] = labels_comp` (azp.py 107) for an array of any length: numpy repeats an array of
length one and raises `ValueError` for any other wrong length. -/
def fromArray (k : Nat) (l : List Int) : Res (Labels k) :=
  if h : l.length = k then .ok fun i => l.get ⟨i.val, by omega⟩
  else match l with
    | [x] => .ok fun _ => x
    | _ => .raise (.valueError "shape mismatch")

/-- The state of an `AZPReactiveTabu` object apart from the random generator. -/
structure ReactSelf (σ : Type) where
  visited : List (List Int)
  avg : ℚ
  repCounter : Nat
  strat : σ

/-- A freshly constructed object (azp.py 894-905). -/
def ReactSelf.fresh {σ : Type} (strat : σ) : ReactSelf σ := ⟨[], 1, 1, strat⟩

/-- `AZPReactiveTabu(max_iterations, k1, k2).fit(...)` with the library's strategies. -/
def reactiveTabuFit {n q : Nat} {ρ : Type} (o : MstOrder) (expf : ℚ → ℚ) (obj : Objective ρ)
    (maxIt : Nat) (k1 k2 : Int) (adj : Adj n) (attr : Fin n → ρ) (nRegions : Int)
    (initialLabels : Option (Labels n)) (self : ReactSelf (Strat n q)) (rng : Rng) :
    Res (Labels n × ReactSelf (Strat n q) × Rng) :=
  fitWith o adj attr (fun idx a init at' self rng => do
    let (out, self') ← reactComponentList (Strat.ops expf (fun i => idx.get i) at' obj) obj at' a
      maxIt k1 k2 init
      ⟨self.visited, self.avg, self.repCounter, self.strat.start (obj.call init at'), rng⟩
    let labels ← fromArray idx.length out
    .ok (labels, ⟨self'.visited, self'.avg, self'.repCounter, self'.strat⟩, self'.rng))
    nRegions initialLabels self rng

end Region
