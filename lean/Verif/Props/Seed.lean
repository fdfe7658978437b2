import Verif.Lemmas.Seed
import Verif.Props.Names
/-
Property theorems C94: `random_state` and reproducibility.
-/
namespace Region.Props

open Region Res

/-! ### The result is determined by the numbers drawn -/

/-- C94: a fit of `AZP` draws finitely many numbers, and its outcome is determined by them. -/
theorem c94_azp_draws {n q : Nat} {ρ : Type} (o : MstOrder) (expf : ℚ → ℚ) (obj : Objective ρ)
    (fuel : Nat) (adj : Adj n) (attr : Fin n → ρ) (p : Int) (initial : Option (Labels n))
    (st : Strat n q) (r : Rng) :
    ∃ k, ∀ s : Rng, (∀ i < k, s i = r i) →
      Rel (fun x y => x.1 = y.1 ∧ x.2.1 = y.2.1 ∧ (∀ i, x.2.2 i = s (k + i)) ∧ ∀ i, y.2.2 i = r (k + i))
        (azpFit o expf obj fuel adj attr p initial st s) (azpFit o expf obj fuel adj attr p initial st r) := by
  obtain ⟨k, out, h⟩ := azpFit_reads o expf obj adj attr p initial fuel st r
  refine ⟨k, fun s hs => ?_⟩
  dsimp only at h
  rw [h s hs, h r fun _ _ => rfl]
  cases out with
  | ok a => exact ⟨rfl, rfl, fun i => congrArg s (Nat.add_comm i k), fun i => congrArg r (Nat.add_comm i k)⟩
  | raise e => exact rfl
  | timeout => exact trivial

/-- C94: the same for `AZPBasicTabu`. -/
theorem c94_basic_tabu_draws {n q : Nat} {ρ : Type} (o : MstOrder) (expf : ℚ → ℚ) (obj : Objective ρ)
    (fuel : Nat) (len : Option Nat) (reps : Int) (adj : Adj n) (attr : Fin n → ρ) (p : Int)
    (initial : Option (Labels n)) (st : Strat n q) (r : Rng) :
    ∃ k, ∀ s : Rng, (∀ i < k, s i = r i) →
      Rel (fun x y => x.1 = y.1 ∧ x.2.1 = y.2.1 ∧ (∀ i, x.2.2 i = s (k + i)) ∧ ∀ i, y.2.2 i = r (k + i))
        (basicTabuFit o expf obj fuel len reps adj attr p initial st s)
        (basicTabuFit o expf obj fuel len reps adj attr p initial st r) := by
  obtain ⟨k, out, h⟩ := basicTabuFit_reads o expf obj adj attr p initial fuel len reps st r
  refine ⟨k, fun s hs => ?_⟩
  dsimp only at h
  rw [h s hs, h r fun _ _ => rfl]
  cases out with
  | ok a => exact ⟨rfl, rfl, fun i => congrArg s (Nat.add_comm i k), fun i => congrArg r (Nat.add_comm i k)⟩
  | raise e => exact rfl
  | timeout => exact trivial

/-- C94: the same for `AZPReactiveTabu`. -/
theorem c94_reactive_tabu_draws {n q : Nat} {ρ : Type} (o : MstOrder) (expf : ℚ → ℚ)
    (obj : Objective ρ) (maxIt : Nat) (k1 k2 : Int) (adj : Adj n) (attr : Fin n → ρ) (p : Int)
    (initial : Option (Labels n)) (self : ReactSelf (Strat n q)) (r : Rng) :
    ∃ k, ∀ s : Rng, (∀ i < k, s i = r i) →
      Rel (fun x y => x.1 = y.1 ∧ x.2.1 = y.2.1 ∧ (∀ i, x.2.2 i = s (k + i)) ∧ ∀ i, y.2.2 i = r (k + i))
        (reactiveTabuFit o expf obj maxIt k1 k2 adj attr p initial self s)
        (reactiveTabuFit o expf obj maxIt k1 k2 adj attr p initial self r) := by
  obtain ⟨k, out, h⟩ := reactiveTabuFit_reads o expf obj adj attr p initial maxIt k1 k2 self r
  refine ⟨k, fun s hs => ?_⟩
  dsimp only at h
  rw [h s hs, h r fun _ _ => rfl]
  cases out with
  | ok a => exact ⟨rfl, rfl, fun i => congrArg s (Nat.add_comm i k), fun i => congrArg r (Nat.add_comm i k)⟩
  | raise e => exact rfl
  | timeout => exact trivial

/-- C94: the same for annealing. -/
theorem c94_sa_draws {n : Nat} {ρ : Type} (o : MstOrder) (expf : ℚ → ℚ) (obj : Objective ρ)
    (f1 f2 f3 : Nat) (P : SaParams) (self : SaObj) (adj : Adj n) (attr : Fin n → ρ) (p : Int)
    (initial : Option (Labels n)) (cooling : ℚ) (r : Rng) :
    ∃ k, ∀ s : Rng, (∀ i < k, s i = r i) →
      Rel (fun x y => x.1 = y.1 ∧ x.2.1 = y.2.1 ∧ x.2.2.1 = y.2.2.1 ∧
          (∀ i, x.2.2.2 i = s (k + i)) ∧ ∀ i, y.2.2.2 i = r (k + i))
        (saFit o expf obj f1 f2 f3 P self adj attr p initial cooling s)
        (saFit o expf obj f1 f2 f3 P self adj attr p initial cooling r) := by
  obtain ⟨k, out, h⟩ := saFit_reads o expf obj f1 f2 f3 P self adj attr p initial cooling r
  refine ⟨k, fun s hs => ?_⟩
  dsimp only at h
  rw [h s hs, h r fun _ _ => rfl]
  cases out with
  | ok a =>
    exact ⟨rfl, rfl, rfl, fun i => congrArg s (Nat.add_comm i k), fun i => congrArg r (Nat.add_comm i k)⟩
  | raise e => exact rfl
  | timeout => exact trivial

/-- The labels found, for the examples. -/
def foundLabels {n : Nat} {α : Type} : Res (Labels n × α) → List Int
  | .ok (L, _) => arrayList L
  | _ => []

/-- AZP on a path with the attributes 0, 3, 0, 3 and two regions, for the examples. -/
def azpDemo (st : Strat 4 0) : Rng → Res (Labels 4 × Strat 4 0 × Rng) :=
  azpFit .rowMajor (fun _ => 0) (pairwise manhattan) 5 path4 (column ![0, 3, 0, 3]) 2 none st

/-- Two tapes starting alike; on a different tape the result is another one. -/
example : foundLabels (azpDemo (.azp 0) fun _ => 0) = [0, 1, 1, 1] ∧
    foundLabels (azpDemo (.azp 0) fun i => if i < 15 then 0 else 7) = [0, 1, 1, 1] ∧
    foundLabels (azpDemo (.azp 0) fun _ => 1) = [0, 0, 0, 1] := by decide +kernel

/-! ### Constructing an object with `random_state` and using it at once -/

/-- C94 for `AZP`: a fit right after the construction with a `random_state` gives the same, whatever the
generator did before. -/
theorem c94_azp_partial {S : Type} (mt : S → Rng) (s : S) {n q : Nat} {ρ : Type} (o : MstOrder)
    (expf : ℚ → ℚ) (obj : Objective ρ) (fuel : Nat) (adj : Adj n) (attr : Fin n → ρ) (p : Int)
    (initial : Option (Labels n)) (arg : StrategyArg (Strat n q)) (w w' : Process) :
    (newAzp mt arg (some s) w).1 = (newAzp mt arg (some s) w').1 ∧
    ∀ st : Strat n q, Rel (fun x y => x.1 = y.1 ∧ x.2.1 = y.2.1 ∧ x.2.2.tape = y.2.2.tape)
      ((newAzp mt arg (some s) w).2.run (azpFit o expf obj fuel adj attr p initial st))
      ((newAzp mt arg (some s) w').2.run (azpFit o expf obj fuel adj attr p initial st)) :=
  ⟨rfl, fun _ => Rel.same _ fun _ => ⟨rfl, rfl, rfl⟩⟩

/-- C94 for `AZPBasicTabu`. -/
theorem c94_basic_tabu_partial {S : Type} (mt : S → Rng) (s : S) {n q : Nat} {ρ : Type} (o : MstOrder)
    (expf : ℚ → ℚ) (obj : Objective ρ) (fuel : Nat) (len : Option Int) (reps : Int) (adj : Adj n)
    (attr : Fin n → ρ) (p : Int) (initial : Option (Labels n)) (w w' : Process) :
    (newBasicTabu mt len (some s) w).1 = (newBasicTabu mt len (some s) w').1 ∧
    ∀ l, (newBasicTabu mt len (some s) w).1 = .ok l → ∀ st : Strat n q,
      Rel (fun x y => x.1 = y.1 ∧ x.2.1 = y.2.1 ∧ x.2.2.tape = y.2.2.tape)
        ((newBasicTabu mt len (some s) w).2.run
          (basicTabuFit o expf obj fuel l reps adj attr p initial st))
        ((newBasicTabu mt len (some s) w').2.run
          (basicTabuFit o expf obj fuel l reps adj attr p initial st)) := by
  unfold newBasicTabu
  cases newTabuLength len with
  | ok l => exact ⟨rfl, fun _ _ _ => Rel.same _ fun _ => ⟨rfl, rfl, rfl⟩⟩
  | raise e => exact ⟨rfl, fun _ h => by cases h⟩
  | timeout => exact ⟨rfl, fun _ h => by cases h⟩

/-- C94 for `AZPReactiveTabu`. -/
theorem c94_reactive_tabu_partial {S : Type} (mt : S → Rng) (s : S) {n q : Nat} {ρ : Type}
    (o : MstOrder) (expf : ℚ → ℚ) (obj : Objective ρ) (maxIt : Int) (k1 k2 : Int) (adj : Adj n)
    (attr : Fin n → ρ) (p : Int) (initial : Option (Labels n)) (w w' : Process) :
    (newReactiveTabu mt maxIt (some s) w).1 = (newReactiveTabu mt maxIt (some s) w').1 ∧
    ∀ m, (newReactiveTabu mt maxIt (some s) w).1 = .ok m → ∀ self : ReactSelf (Strat n q),
      Rel (fun x y => x.1 = y.1 ∧ x.2.1 = y.2.1 ∧ x.2.2.tape = y.2.2.tape)
        ((newReactiveTabu mt maxIt (some s) w).2.run
          (reactiveTabuFit o expf obj m k1 k2 adj attr p initial self))
        ((newReactiveTabu mt maxIt (some s) w').2.run
          (reactiveTabuFit o expf obj m k1 k2 adj attr p initial self)) :=
  ⟨rfl, fun _ _ _ => Rel.same _ fun _ => ⟨rfl, rfl, rfl⟩⟩

/-- C94 for annealing: a fit of an object with a `random_state` gives the same at any time. -/
theorem c94_sa_partial {S : Type} (mt : S → Rng) (s : S) {n : Nat} {ρ : Type} (o : MstOrder)
    (expf : ℚ → ℚ) (obj : Objective ρ) (f1 f2 f3 : Nat) (P : SaParams) (self : SaObj) (adj : Adj n)
    (attr : Fin n → ρ) (p : Int) (initial : Option (Labels n)) (cooling : ℚ) (w w' : Process) :
    Rel (fun x y => x.1 = y.1 ∧ x.2.1 = y.2.1 ∧ x.2.2.tape = y.2.2.tape)
      (saFitSeeding mt (some s) o expf obj f1 f2 f3 P self adj attr p initial cooling w)
      (saFitSeeding mt (some s) o expf obj f1 f2 f3 P self adj attr p initial cooling w') := by
  unfold saFitSeeding Process.run
  exact Rel.same _ fun _ => ⟨rfl, rfl, rfl⟩

/-- The labels found by annealing, for the examples. -/
def foundSa {n : Nat} {α : Type} : Res (Option (Labels n) × α) → List Int
  | .ok (some L, _) => arrayList L
  | _ => []

/-- Annealing on the path of `azpDemo`. -/
def saSeedDemo (rs : Option Int) (w : Process) : List Int :=
  foundSa (saFitSeeding (fun (s : Int) _ => s.toNat) rs .rowMajor (fun _ => 0) (pairwise manhattan) 6 6 6
    ⟨1, some 2, .int 10, 1, 2⟩ .fresh path4 (column ![0, 3, 0, 3]) 2 none (1/2) w)

/-- An object with a `random_state` in two processes, and one without. -/
example : saSeedDemo (some 1) ⟨fun _ => 5, fun _ _ => 0⟩ = [0, 0, 0, 1] ∧
    saSeedDemo (some 1) ⟨fun _ => 6, fun _ _ => 1⟩ = [0, 0, 0, 1] ∧
    saSeedDemo none ⟨fun _ => 5, fun _ _ => 0⟩ = [0, 1, 1, 1] ∧
    saSeedDemo none ⟨fun _ => 5, fun _ _ => 1⟩ = [0, 0, 0, 1] := by decide +kernel

/-- C94 for the max-p heuristic with any given local search that does not seed the generator. -/
theorem c94_maxp_partial {S : Type} (mt : S → Rng) (s : S) {ς : Type} {n q : Nat} {ρ : Type}
    (ls : LocalSearch ς n q) (metric : ρ → ρ → ℚ) (obj : Objective ρ) (adj : Adj n) (attr : Fin n → ρ)
    (spat : Fin n → Fin q → ℚ) (thr : Fin q → ℚ) (maxIt : Nat) (st : ς) (w w' : Process) :
    maxpFit ls metric obj adj attr spat thr maxIt st (newMaxP mt (some s) w).tape =
      maxpFit ls metric obj adj attr spat thr maxIt st (newMaxP mt (some s) w').tape := rfl

/-- C94 for the max-p heuristic with annealing as local search, both with a `random_state`. -/
theorem c94_maxp_sa_partial {S : Type} (mt : S → Rng) (s s' : S) {n q : Nat} {ρ : Type} (o : MstOrder)
    (expf : ℚ → ℚ) (metric : ρ → ρ → ℚ) (obj : Objective ρ) (f1 f2 f3 : Nat) (P : SaParams)
    (adj : Adj n) (attr : Fin n → ρ) (spat : Fin n → Fin q → ℚ) (thr : Fin q → ℚ) (maxIt : Nat)
    (self : SaObj) (w w' : Process) :
    Rel (fun x y => x.1 = y.1 ∧ x.2.1 = y.2.1 ∧ x.2.2.1 = y.2.2.1)
      (maxpFitSa mt (some s') o expf metric obj f1 f2 f3 P adj attr spat thr maxIt self
        (newMaxP mt (some s) w))
      (maxpFitSa mt (some s') o expf metric obj f1 f2 f3 P adj attr spat thr maxIt self
        (newMaxP mt (some s) w')) := by
  have hls : LsAlike (fun x y : SaObj × (Nat → Rng) => x.1 = y.1)
      (saSearchSeeding (q := q) mt (some s') o expf obj f1 f2 f3 P adj attr)
      (saSearchSeeding (q := q) mt (some s') o expf obj f1 f2 f3 P adj attr) := by
    refine ⟨fun _ _ _ _ _ _ _ h => h, ?_⟩
    rintro p init ⟨x, e⟩ ⟨_, e'⟩ r rfl
    simp only [saSearchSeeding, saFitSeeding, Process.run, Process.seed]
    cases saFit o expf obj f1 f2 f3 P x adj attr p (some init) (85 / 100) (mt s') with
    | ok y => exact ⟨rfl, rfl, rfl⟩
    | raise e => exact rfl
    | timeout => exact trivial
  have := maxpFit_rel (c := 1) (metric := metric) (metric' := metric) (attr := attr) (attr' := attr)
    (obj := obj) (obj' := obj) one_pos (fun _ _ => by simp) hls
    ⟨fun _ => by simp, fun _ _ _ => by simp⟩ adj (QuotaTimes.refl spat thr) maxIt
    (st := (self, w.entropy)) (st' := (self, w'.entropy)) rfl (mt s)
  unfold maxpFitSa
  refine Rel.bind this ?_
  rintro ⟨p, L, st, r⟩ ⟨p', L', st', r'⟩ ⟨h1, h2, h3, h4⟩
  exact ⟨h1, h2, h3⟩

/-- C94 for the max-p heuristic without a given local search: the number of regions is reproducible. -/
theorem c94_maxp_default_partial {S : Type} (mt : S → Rng) (s : S) {n q : Nat} {ρ : Type} (o : MstOrder)
    (expf : ℚ → ℚ) (metric : ρ → ρ → ℚ) (obj : Objective ρ) (fuel : Nat) (adj : Adj n) (attr : Fin n → ρ)
    (spat : Fin n → Fin q → ℚ) (thr : Fin q → ℚ) (maxIt : Nat) (w w' : Process)
    {p p' : Nat} {L L' : Option (Labels n)} {v v' : Process}
    (h : maxpFitDefault o expf metric obj fuel adj attr spat thr maxIt (newMaxP mt (some s) w) =
      .ok (p, L, v))
    (h' : maxpFitDefault o expf metric obj fuel adj attr spat thr maxIt (newMaxP mt (some s) w') =
      .ok (p', L', v')) : p = p' := by
  unfold maxpFitDefault at h h'
  obtain ⟨⟨m, kept, r⟩, hc, h⟩ := Res.bind_eq_ok.1 h
  obtain ⟨⟨m', kept', r'⟩, hc', h'⟩ := Res.bind_eq_ok.1 h'
  have : (m, kept, r) = (m', kept', r') := Res.ok.inj (hc.symm.trans hc')
  cases this
  dsimp only at h h'
  obtain ⟨x, -, h⟩ := Res.bind_eq_ok.1 h
  obtain ⟨x', -, h'⟩ := Res.bind_eq_ok.1 h'
  obtain ⟨y, -, h⟩ := Res.bind_eq_ok.1 h
  obtain ⟨y', -, h'⟩ := Res.bind_eq_ok.1 h'
  cases h
  cases h'
  rfl

/-- What a fit of the max-p heuristic found, for the examples. -/
def foundMaxp {n : Nat} {α : Type} : Res (Nat × Option (Labels n) × α) → Nat × List Int
  | .ok (p, some L, _) => (p, arrayList L)
  | _ => (0, [])

/-! ### Where reproducibility fails -/

/-- C94 fails for the max-p heuristic without a given local search: constructed with a `random_state` and
used at once, it returns different partitions. -/
theorem c94_maxp_default_false : ∃ (w w' : Process),
    foundMaxp (maxpFitDefault (q := 1) .rowMajor (fun _ => 0) manhattan (pairwise manhattan) 6 path5
      (column ![0, 3, 0, 3, 0]) (fun _ _ => 1) (fun _ => 2) 1 (newMaxP (fun _ : Int => fun _ => 0) (some 7) w))
      = (2, [0, 0, 1, 1, 1]) ∧
    foundMaxp (maxpFitDefault (q := 1) .rowMajor (fun _ => 0) manhattan (pairwise manhattan) 6 path5
      (column ![0, 3, 0, 3, 0]) (fun _ _ => 1) (fun _ => 2) 1 (newMaxP (fun _ : Int => fun _ => 0) (some 7) w'))
      = (2, [0, 0, 0, 1, 1]) :=
  ⟨⟨fun _ => 0, fun _ _ => 0⟩, ⟨fun _ => 0, fun _ _ => 1⟩, by decide +kernel⟩

/-- C94 fails for the max-p heuristic with annealing as local search if only the heuristic has a
`random_state`. -/
theorem c94_maxp_sa_false : ∃ (w w' : Process),
    foundMaxp (maxpFitSa (q := 1) (fun _ : Int => fun _ => 0) none .rowMajor (fun _ => 0) manhattan
      (pairwise manhattan) 6 6 6 ⟨1, some 2, .int 10, 1, 2⟩ path5 (column ![0, 3, 0, 3, 0]) (fun _ _ => 1)
      (fun _ => 2) 1 .fresh (newMaxP (fun _ : Int => fun _ => 0) (some 7) w)) = (2, [0, 0, 1, 1, 1]) ∧
    foundMaxp (maxpFitSa (q := 1) (fun _ : Int => fun _ => 0) none .rowMajor (fun _ => 0) manhattan
      (pairwise manhattan) 6 6 6 ⟨1, some 2, .int 10, 1, 2⟩ path5 (column ![0, 3, 0, 3, 0]) (fun _ _ => 1)
      (fun _ => 2) 1 .fresh (newMaxP (fun _ : Int => fun _ => 0) (some 7) w')) = (2, [0, 0, 0, 1, 1]) :=
  ⟨⟨fun _ => 0, fun _ _ => 0⟩, ⟨fun _ => 0, fun _ _ => 1⟩, by decide +kernel⟩

/-- C94: it is the `random_state` of the object constructed last that counts, also for an object
constructed before. -/
theorem c94_last_constructed {S : Type} (mt : S → Rng) (a : Option S) (b : S) {n q : Nat} {ρ : Type}
    (o : MstOrder) (expf : ℚ → ℚ) (obj : Objective ρ) (fuel : Nat) (adj : Adj n) (attr : Fin n → ρ)
    (p : Int) (initial : Option (Labels n)) (st : Strat n q) (arg arg' : StrategyArg (Strat n q))
    (w : Process) :
    Rel (fun x y => x.1 = y.1 ∧ x.2.1 = y.2.1)
      ((newAzp mt arg' (some b) (newAzp mt arg a w).2).2.run
        (azpFit o expf obj fuel adj attr p initial st))
      ((newAzp mt arg' (some b) w).2.run (azpFit o expf obj fuel adj attr p initial st)) := by
  cases a <;> exact Rel.same _ fun _ => ⟨rfl, rfl⟩

/-- C94 fails for `AZP` if another object has been constructed in between. -/
theorem c94_in_between_false : ∃ (mt : Int → Rng) (w : Process),
    foundLabels ((newAzp (n := 4) (q := 0) mt .none (some 1) w).2.run (azpDemo (.azp 0)))
      = [0, 0, 0, 1] ∧
    foundLabels ((newAzp (n := 4) (q := 0) mt .none (some 2) (newAzp (n := 4) (q := 0) mt .none (some 1) w).2).2.run (azpDemo (.azp 0)))
      = [0, 1, 1, 1] :=
  ⟨fun s _ => (s % 2).toNat, ⟨fun _ => 0, fun _ _ => 0⟩, by decide +kernel⟩

/-- C94 fails for a second fit of the same object with the same arguments. -/
theorem c94_second_fit_false : ∃ (mt : Int → Rng) (w : Process),
    (match (newAzp (n := 4) (q := 0) mt .none (some 1) w).2.run (azpDemo (.azp 0)) with
      | .ok (L, st, w) => (arrayList L, foundLabels (w.run (azpDemo st)))
      | _ => ([], [])) = ([0, 0, 0, 1], [0, 1, 1, 1]) :=
  ⟨fun _ i => if i < 8 then 1 else 0, ⟨fun _ => 0, fun _ _ => 0⟩, by decide +kernel⟩

/-- C94: a program that seeds the module `random` itself and then constructs an object without
`random_state` gains nothing: its seed is discarded. -/
theorem c94_own_seed_discarded {S : Type} (mt : S → Rng) (a : S) {n q : Nat}
    (arg : StrategyArg (Strat n q)) (w : Process) :
    newAzp mt arg none (w.seed mt (some a)) = newAzp mt arg none w ∧
    (∀ len l, newTabuLength len = .ok l →
      newBasicTabu mt len none (w.seed mt (some a)) = newBasicTabu mt len none w) ∧
    (∀ maxIt, newReactiveTabu mt maxIt none (w.seed mt (some a)) = newReactiveTabu mt maxIt none w) ∧
    newMaxP mt none (w.seed mt (some a)) = newMaxP mt none w := by
  refine ⟨rfl, fun len l h => ?_, fun _ => rfl, rfl⟩
  unfold newBasicTabu
  rw [h]
  rfl

/-- So two runs of such a program differ. -/
example : ∃ w w' : Process,
    foundLabels ((newAzp (n := 4) (q := 0) (fun _ : Int => fun _ => 0) .none none
        (w.seed (fun _ : Int => fun _ => 0) (some 7))).2.run (azpDemo (.azp 0)))
      = [0, 1, 1, 1] ∧
    foundLabels ((newAzp (n := 4) (q := 0) (fun _ : Int => fun _ => 0) .none none
        (w'.seed (fun _ : Int => fun _ => 0) (some 7))).2.run (azpDemo (.azp 0)))
      = [0, 0, 0, 1] :=
  ⟨⟨fun _ => 0, fun _ _ => 0⟩, ⟨fun _ => 0, fun _ _ => 1⟩, by decide +kernel⟩

/-- C94: a rejected `AZPBasicTabu` leaves the generator alone; a rejected `AZP` or `AZPReactiveTabu` has
already seeded it. -/
theorem c94_rejected {S : Type} (mt : S → Rng) (a : S) {n q : Nat} (w : Process) :
    (∀ len e, newTabuLength len = .raise e → newBasicTabu mt len (some a) w = (.raise e, w)) ∧
    (∀ (arg : StrategyArg (Strat n q)) e, newAzpStrategy arg = .raise e →
      (newAzp mt arg (some a) w).1 = .raise e ∧ (newAzp mt arg (some a) w).2.tape = mt a) ∧
    (∀ maxIt e, newReactMaxIt maxIt = .raise e →
      (newReactiveTabu mt maxIt (some a) w).1 = .raise e ∧
      (newReactiveTabu mt maxIt (some a) w).2.tape = mt a) := by
  refine ⟨fun len e h => ?_, fun arg e h => ⟨h, rfl⟩, fun maxIt e h => ⟨h, rfl⟩⟩
  unfold newBasicTabu
  rw [h]

example : newBasicTabu (fun a : Nat => fun _ => a) (some (-1)) (some 5) ⟨fun _ => 0, fun _ _ => 0⟩ =
    (.raise (.valueError "maxlen must be non-negative"), ⟨fun _ => 0, fun _ _ => 0⟩) :=
  (c94_rejected (n := 1) (q := 1) (fun a : Nat => fun _ => a) 5 _).1 _ _ (by decide +kernel)

/-- C94: annealing without `random_state` takes a fresh tape from the operating system for every fit,
and never the same one again. -/
theorem c94_sa_unseeded {S : Type} (mt : S → Rng) {n : Nat} {ρ : Type} (o : MstOrder)
    (expf : ℚ → ℚ) (obj : Objective ρ) (f1 f2 f3 : Nat) (P : SaParams) (self : SaObj) (adj : Adj n)
    (attr : Fin n → ρ) (p : Int) (initial : Option (Labels n)) (cooling : ℚ) (w : Process)
    {L : Option (Labels n)} {self' : SaObj} {w' : Process}
    (h : saFitSeeding mt none o expf obj f1 f2 f3 P self adj attr p initial cooling w =
      .ok (L, self', w')) :
    (∀ i, w'.entropy i = w.entropy (i + 1)) ∧
    ∃ st, saFit o expf obj f1 f2 f3 P self adj attr p initial cooling (w.entropy 0) =
      .ok (L, self', st, w'.tape) := by
  unfold saFitSeeding Process.run at h
  obtain ⟨⟨L1, s1, r1⟩, h1, h2⟩ := Res.bind_eq_ok.1 h
  obtain ⟨⟨L2, s2, st, r2⟩, h3, h4⟩ := Res.bind_eq_ok.1 h1
  cases h4
  cases h2
  exact ⟨fun _ => rfl, st, h3⟩

/-- Two fits of the same object on different tapes, found by the operating system. -/
example : (match saFitSeeding (fun _ : Nat => fun _ => 0) none .rowMajor (fun _ => 0)
      (pairwise manhattan) 20 5 30 saDemo .fresh path4 (ramp 4) 2 (some ![0, 1, 1, 1]) (1/2)
      ⟨fun _ => 9, fun i _ => i⟩ with
    | .ok (some L, _, w) => (arrayList L, w.entropy 0 0, w.entropy 1 0)
    | _ => ([], 0, 0)) = ([0, 0, 1, 1], 1, 2) := by decide +kernel

/-- C94: the max-p heuristic with annealing uses up one such tape for every search. -/
theorem c94_maxp_sa_uses_up :
    (match maxpFitSa (q := 1) (fun _ : Int => fun _ => 0) none .rowMajor (fun _ => 0) manhattan
      (pairwise manhattan) 6 6 6 ⟨1, some 2, .int 10, 1, 2⟩ path5 (column ![0, 3, 0, 3, 0]) (fun _ _ => 1)
      (fun _ => 2) 1 .fresh ⟨fun _ => 0, fun i _ => i⟩ with
    | .ok (p, _, _, w) => (p, w.entropy 0 0)
    | _ => (0, 0)) = (2, 1) := by decide +kernel

/-! ### Seeding in the course of a run -/

/-- C94: whatever the default max-p heuristic does, the heuristic with an `AZP` given beforehand does on
some tape; what is proved for every tape holds for it. -/
theorem c94_default_covered {n q : Nat} {ρ : Type} (o : MstOrder) (expf : ℚ → ℚ)
    (metric : ρ → ρ → ℚ) (obj : Objective ρ) (fuel : Nat) (adj : Adj n) (attr : Fin n → ρ)
    (spat : Fin n → Fin q → ℚ) (thr : Fin q → ℚ) (maxIt : Nat) (w : Process) :
    ∃ t : Rng, Rel (fun x y => x.1 = y.1 ∧ x.2.1 = y.2.1)
      (maxpFitDefault o expf metric obj fuel adj attr spat thr maxIt w)
      (maxpFit (azpSearch o expf obj fuel adj attr) metric obj adj attr spat thr maxIt (.azp 0) t) := by
  obtain ⟨t, h⟩ := (maxpFitDefault_covered o expf metric obj fuel adj attr spat thr maxIt w).run
  refine ⟨t, Rel.mono h ?_⟩
  rintro c b ⟨a, r, rfl, h1, h2⟩
  exact ⟨h1, h2⟩

/-- C94: the same for annealing as local search, which seeds the generator at the start of every
search. -/
theorem c94_sa_covered {S : Type} (mt : S → Rng) (rs : Option S) {n q : Nat} {ρ : Type} (o : MstOrder)
    (expf : ℚ → ℚ) (metric : ρ → ρ → ℚ) (obj : Objective ρ) (f1 f2 f3 : Nat) (P : SaParams)
    (adj : Adj n) (attr : Fin n → ρ) (spat : Fin n → Fin q → ℚ) (thr : Fin q → ℚ) (maxIt : Nat)
    (self : SaObj) (w : Process) :
    ∃ t : Rng, Rel (fun x y => x.1 = y.1 ∧ x.2.1 = y.2.1 ∧ x.2.2.1 = y.2.2.1)
      (maxpFitSa mt rs o expf metric obj f1 f2 f3 P adj attr spat thr maxIt self w)
      (maxpFit (saSearch o expf obj f1 f2 f3 P adj attr) metric obj adj attr spat thr maxIt self t) := by
  obtain ⟨t, h⟩ := (maxpFit_covered (SR := fun x y : _ => x.1 = y) obj attr
    (fun p init st' st r h => saSearchSeeding_covered mt rs o expf obj f1 f2 f3 P adj attr p init st' st r
      h) (fun _ _ _ _ h => h) metric adj spat thr maxIt (self, w.entropy) self w.tape rfl).run
  refine ⟨t, ?_⟩
  unfold maxpFitSa
  cases hx : maxpFit (saSearchSeeding mt rs o expf obj f1 f2 f3 P adj attr) metric obj adj attr spat thr
      maxIt (self, w.entropy) w.tape <;> rw [hx] at h
  · cases hy : maxpFit (saSearch o expf obj f1 f2 f3 P adj attr) metric obj adj attr spat thr maxIt self t
      <;> rw [hy] at h
    · obtain ⟨a, r, rfl, h1, h2, h3⟩ := h
      exact ⟨h1, h2, h3⟩
    all_goals exact h.elim
  all_goals
    cases hy : maxpFit (saSearch o expf obj f1 f2 f3 P adj attr) metric obj adj attr spat thr maxIt self t
      <;> rw [hy] at h
    all_goals first | exact h.elim | exact h

end Region.Props
