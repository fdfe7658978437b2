import Verif.Lemmas.ReactHistory
import Verif.Props.AzpTabu
/-
Property theorems C89: steps 6, 7, 10 and 11 of the reactive tabu search.
-/
namespace Region.Props

open Region Spec Finset

/-- C89, one round in full: after the best move has been tried, the solution reached is stored (step
10), unless it has been seen more than `k1` times; in that case the history is forgotten and random
moves are made (step 11), if the solutions since it was last seen had been gone through on at least
`k2` earlier occasions, and otherwise (step 8) `deque` raises `TypeError`. -/
theorem c89_outcome {σ ρ : Type} {k : Nat} (ops : StratOps σ k) (obj : Objective ρ)
    (attr : Fin k → ρ) (adj : Adj k) (k1 k2 : Int) (avg : ℚ) (s : TabuState σ k) {i : Nat}
    {m : Move k} {d : ℚ} {b : Bool} {s1 : TabuState σ k}
    (hbest : bestMove obj attr s.labels (possibleMoves adj s.labels s.tabu) 0 none =
      .ok (some (i, m, d)))
    (hmove : tryMove ops adj m s = .ok (b, s1)) :
    (¬ (arrayList s1.labels ∈ s.visited ∧ k1 < (s.visited.count (arrayList s1.labels) : Int)) →
      reactRound ops obj attr adj k1 k2 avg s =
        .ok (.ten, { s1 with visited := s.visited ++ [arrayList s1.labels] })) ∧
    ∀ cycle, SinceLast s.visited (arrayList s1.labels) cycle →
      k1 < (s.visited.count (arrayList s1.labels) : Int) →
      (k2 ≤ (earlierOccasions s.visited cycle : Int) →
        reactRound ops obj attr adj k1 k2 avg s =
          (randomMoves ops adj (⌊1 + avg / 2⌋).toNat
            ((possibleMoves adj s.labels s.tabu).eraseIdx i) { s1 with visited := [] } >>= fun s' =>
          .ok (.eleven (arrayList s1.labels), s'))) ∧
      ((earlierOccasions s.visited cycle : Int) < k2 →
        reactRound ops obj attr adj k1 k2 avg s = .raise .typeError) := by
  have hv := tryMove_keeps_history hmove
  have hround : reactRound ops obj attr adj k1 k2 avg s =
      if s.visited.contains (arrayList s1.labels) then
        if k1 < (s.visited.count (arrayList s1.labels) : Int) then
          if k2 ≤ (if 0 < k2 then cycleCount s.visited (lastCycle s.visited (arrayList s1.labels)) k2
              (List.range (s.visited.length - (lastCycle s.visited (arrayList s1.labels)).length)) 0
            else 0) then
            (randomMoves ops adj (⌊1 + avg / 2⌋).toNat
              ((possibleMoves adj s.labels s.tabu).eraseIdx i) { s1 with visited := [] } >>= fun s' =>
            .ok (.eleven (arrayList s1.labels), s'))
          else .raise .typeError
        else .ok (.ten, { s1 with visited := s.visited ++ [arrayList s1.labels] })
      else .ok (.ten, { s1 with visited := s.visited ++ [arrayList s1.labels] }) := by
    unfold reactRound
    simp only [hbest, Res.bind_ok, hmove, hv]
  rw [hround]
  constructor
  · intro hn
    by_cases h1 : arrayList s1.labels ∈ s.visited
    · rw [if_pos (by simpa using h1), if_neg fun h2 => hn ⟨h1, h2⟩]
    · rw [if_neg (by simpa using h1)]
  · intro cycle hcyc hk1
    have hmem : arrayList s1.labels ∈ s.visited := by
      obtain ⟨be, af, hb, rfl, -⟩ := hcyc
      rw [hb]; simp
    rw [sinceLast_unique hcyc (lastCycle_spec hmem), if_pos (by simpa using hmem), if_pos hk1]
    exact ⟨fun h => if_pos ((found_iff _ _ _).2 h),
      fun h => if_neg fun h' => absurd ((found_iff _ _ _).1 h') (not_le.2 h)⟩

/-- C89: a round that ends in step 10 stores the solution it reached; the solution had not been seen
more than `k1` times. -/
theorem c89_ten {σ ρ : Type} {k : Nat} (ops : StratOps σ k) (obj : Objective ρ) (attr : Fin k → ρ)
    (adj : Adj k) (k1 k2 : Int) (avg : ℚ) {s s' : TabuState σ k}
    (h : reactRound ops obj attr adj k1 k2 avg s = .ok (.ten, s')) :
    s'.visited = s.visited ++ [arrayList s'.labels] ∧
      (arrayList s'.labels ∈ s.visited → (s.visited.count (arrayList s'.labels) : Int) ≤ k1) := by
  have h0 := h
  unfold reactRound at h
  obtain ⟨best, hbest, h⟩ := Res.bind_eq_ok.1 h
  cases best with
  | none => cases h
  | some x =>
    obtain ⟨i, m, d⟩ := x
    obtain ⟨⟨b, s1⟩, hmove, -⟩ := Res.bind_eq_ok.1 h
    obtain ⟨h1, h2⟩ := c89_outcome ops obj attr adj k1 k2 avg s hbest hmove
    by_cases hc : arrayList s1.labels ∈ s.visited ∧ k1 < (s.visited.count (arrayList s1.labels) : Int)
    · exfalso
      obtain ⟨h3, h4⟩ := h2 _ (lastCycle_spec hc.1) hc.2
      rcases le_or_gt k2 (earlierOccasions s.visited (lastCycle s.visited (arrayList s1.labels))) with
        hk | hk
      · rw [h3 hk] at h0
        obtain ⟨_, -, h0⟩ := Res.bind_eq_ok.1 h0
        cases h0
      · rw [h4 hk] at h0
        cases h0
    · rw [h1 hc] at h0
      cases h0
      refine ⟨rfl, fun hm => ?_⟩
      by_contra hk
      exact hc ⟨hm, not_le.1 hk⟩

/-- C89: a round that ends in step 11 reached a solution that had been seen more than `k1` times, and
the solutions since then had been gone through on at least `k2` earlier occasions; this solution is
remembered as the result and the history is forgotten. -/
theorem c89_eleven {σ ρ : Type} {k : Nat} (ops : StratOps σ k) (obj : Objective ρ) (attr : Fin k → ρ)
    (adj : Adj k) (k1 k2 : Int) (avg : ℚ) {s s' : TabuState σ k} {saved : List Int}
    (h : reactRound ops obj attr adj k1 k2 avg s = .ok (.eleven saved, s')) :
    k1 < (s.visited.count saved : Int) ∧ s'.visited = [] ∧
      ∃ cycle, SinceLast s.visited saved cycle ∧ k2 ≤ (earlierOccasions s.visited cycle : Int) := by
  have h0 := h
  unfold reactRound at h
  obtain ⟨best, hbest, h⟩ := Res.bind_eq_ok.1 h
  cases best with
  | none => cases h
  | some x =>
    obtain ⟨i, m, d⟩ := x
    obtain ⟨⟨b, s1⟩, hmove, -⟩ := Res.bind_eq_ok.1 h
    obtain ⟨h1, h2⟩ := c89_outcome ops obj attr adj k1 k2 avg s hbest hmove
    by_cases hc : arrayList s1.labels ∈ s.visited ∧ k1 < (s.visited.count (arrayList s1.labels) : Int)
    · obtain ⟨h3, h4⟩ := h2 _ (lastCycle_spec hc.1) hc.2
      rcases le_or_gt k2 (earlierOccasions s.visited (lastCycle s.visited (arrayList s1.labels))) with
        hk | hk
      · rw [h3 hk] at h0
        obtain ⟨t, ht, h0⟩ := Res.bind_eq_ok.1 h0
        cases h0
        exact ⟨hc.2, randomMoves_keep_history _ _ ht, _, lastCycle_spec hc.1, hk⟩
      · rw [h4 hk] at h0
        cases h0
    · rw [h1 hc] at h0
      cases h0

/-- C89: one random move is tried in step 11, as the average `avg_it_until_rep` is 1 on a new object and
`fit` never changes it. -/
theorem c89_one_random_move {n q : Nat} {ρ : Type} (o : MstOrder) (expf : ℚ → ℚ) (obj : Objective ρ)
    (maxIt : Nat) (k1 k2 : Int) (adj : Adj n) (attr : Fin n → ρ) (p : Int)
    (initial : Option (Labels n)) (st : Strat n q) (r : Rng) :
    (⌊1 + (ReactSelf.fresh st).avg / 2⌋).toNat = 1 ∧
    ∀ (self self' : ReactSelf (Strat n q)) (L : Labels n) (r' : Rng),
      reactiveTabuFit o expf obj maxIt k1 k2 adj attr p initial self r = .ok (L, self', r') →
        self'.avg = self.avg := by
  refine ⟨show (⌊1 + (1 : ℚ) / 2⌋).toNat = 1 by decide +kernel, fun self self' L r' h => ?_⟩
  have := fitWith_comp (R := True) (T := True) (S := fun s : ReactSelf (Strat n q) => s.avg = self.avg)
    (Q := fun _ _ _ => True) o (adj := adj) attr p initial (fun h => absurd trivial h)
    (comp := fun idx a init at' self rng => do
      let (out, self') ← reactComponentList (Strat.ops expf (fun i => idx.get i) at' obj) obj at' a
        maxIt k1 k2 init
        ⟨self.visited, self.avg, self.repCounter, self.strat.start (obj.call init at'), rng⟩
      let labels ← fromArray idx.length out
      .ok (labels, ⟨self'.visited, self'.avg, self'.repCounter, self'.strat⟩, self'.rng)) ?_ self rfl r
  · unfold reactiveTabuFit at h
    rw [h] at this
    exact this.1
  · intro idx init st rng _ _ _ _ hst
    apply Res.post_partial.2
    rintro ⟨L, s', r'⟩ h
    refine ⟨trivial, ?_⟩
    obtain ⟨⟨out, o'⟩, h1, h⟩ := Res.bind_eq_ok.1 h
    obtain ⟨lab, -, h⟩ := Res.bind_eq_ok.1 h
    cases h
    unfold reactComponentList at h1
    split_ifs at h1
    · cases h1; exact hst
    · obtain ⟨⟨x, y⟩, -, h1⟩ := Res.bind_eq_ok.1 h1
      obtain ⟨z, -, h1⟩ := Res.bind_eq_ok.1 h1
      cases h1
      exact hst

/-! Examples: a history with a cycle, and rounds ending in each of the three ways. -/

example : SinceLast [1, 2, 3, 1, 2, 3, 1, 2] 3 [3, 1, 2] ∧
    earlierOccasions [1, 2, 3, 1, 2, 3, 1, 2] [3, 1, 2] = 1 := by
  exact ⟨⟨[1, 2, 3, 1, 2], [1, 2], rfl, rfl, by decide⟩, by decide⟩

/-- What one round on the path 0-1-2-3-4 with attributes 0, 1, 10, 12, 13 and regions 0, 1, 2 | 3, 4 did;
the best move is that of area 2. -/
def oneRound (history : List (List Int)) (k1 k2 : Int) :
    Res (Option (List Int) × List Int × List (List Int)) :=
  match reactRound (Strat.ops (n := 5) (q := 0) (fun _ => 0) id (column ![0, 1, 10, 12, 13])
      (pairwise manhattan)) (pairwise manhattan) (column ![0, 1, 10, 12, 13]) path5 k1 k2 1
      { labels := ![0, 0, 0, 1, 1], tabu := ⟨[], some 1⟩, visited := history, stop := false,
        strat := .azp 21, rng := fun _ => 0 } with
  | .ok (.ten, s) => .ok (none, arrayList s.labels, s.visited)
  | .ok (.eleven saved, s) => .ok (some saved, arrayList s.labels, s.visited)
  | .raise e => .raise e
  | .timeout => .timeout

example : oneRound [] 0 1 = .ok (none, [0, 0, 1, 1, 1], [[0, 0, 1, 1, 1]]) := by decide +kernel

/-- Seen twice, not more than `k1 = 2` times. -/
example : oneRound [[0, 0, 1, 1, 1], [0, 0, 1, 1, 1]] 2 1 =
    .ok (none, [0, 0, 1, 1, 1], [[0, 0, 1, 1, 1], [0, 0, 1, 1, 1], [0, 0, 1, 1, 1]]) := by
  decide +kernel

/-- Seen more than `k1 = 1` times, and the cycle of length one found once before. -/
example : oneRound [[0, 0, 1, 1, 1], [0, 0, 1, 1, 1]] 1 1 =
    .ok (some [0, 0, 1, 1, 1], [0, 0, 1, 1, 1], []) := by decide +kernel

/-- The same for `k2 = 2`. -/
example : oneRound [[0, 0, 1, 1, 1], [0, 0, 1, 1, 1]] 1 2 = .raise .typeError := by decide +kernel

end Region.Props
