import Verif.Lemmas.Repeat
import Verif.Props.Reject
/-
Property theorems C92: an object used for several fits; and the rounds of annealing when nothing can
move (C91).
-/
namespace Region.Props

open Region Spec Res

/-- C91: when the regions are the islands, annealing returns the initial labels after
`nonmoving_steps_before_stop` rounds, or fewer if the solution has been visited
`repetitions_before_termination` times; one round more if the previous fit with the object ended with a
move. -/
theorem c91_sa_rounds {n : Nat} {ρ : Type} (o : MstOrder) (expf : ℚ → ℚ) (obj : Objective ρ)
    (f1 f2 f3 : Nat) (t : ℚ) (maxIt : Option Int) (i : Nat) (steps : Nat) (reps : Int) (self : SaObj)
    {adj : Adj n} (attr : Fin n → ρ) {α : Type} [DecidableEq α] {isl : Fin n → α}
    (hi : Separates isl adj) (init : Labels n) (hinit : Feasible adj init (numRegions isl))
    (hne : ∀ v, init v ≠ -1) (cooling : ℚ) (hc : 0 < cooling ∧ cooling < 1) (rng : Rng) (hterm : 0 < i)
    (hsteps : 0 < steps) (hf1 : steps < f1) (hf2 : 0 < f2) :
    ∃ self' st' rng', saFit o expf obj f1 f2 f3 ⟨t, maxIt, .int i, steps, reps⟩ self adj attr
        (numRegions isl) (some init) cooling rng = .ok (some init, self', st', rng') ∧
      self'.visited = self.visited ++ List.replicate
        (min (if self.moveMade then steps + 1 else steps)
          (reps - (self.visited.count (arrayList init) : Int)).toNat) (arrayList init) := by
  have hstill : Still (fun cur st rng => azpFit (q := 0) o expf obj f3 adj attr (numRegions isl) cur st
      rng) init := by
    intro al mm st rng hst
    obtain ⟨L, st', rng', h, h1, -, h2⟩ := fitWith_islands o attr (comp := azpComp expf obj f3)
      (Flags al mm) (fun idx a init att st rng hk h1 hst => by
        have hu : (uniqueSorted (arrayList init)).length = 1 := by
          rw [length_uniqueSorted, Finset.card_eq_one]
          refine ⟨init ⟨0, hk⟩, ?_⟩
          ext x
          simp only [List.mem_toFinset, mem_arrayList, Finset.mem_singleton]
          exact ⟨fun ⟨i, hi⟩ => by rw [← hi]; exact h1 _ _, fun hx => ⟨_, hx.symm⟩⟩
        refine ⟨st.start (obj.call init att), ?_, ?_⟩
        · unfold azpComp azpComponent
          simp [hu]
        · obtain ⟨t, term, m, v, rfl⟩ := hst
          exact ⟨_, _, _, _, rfl⟩) hi (some init) ⟨hinit.1, hinit.2, hne⟩ hst rng
    obtain rfl := h1.2.2
    exact ⟨st', rng', h, h2⟩
  obtain ⟨v, hv⟩ := (c90_sa_moves_term (n := n) (q := 0) t (.int i)).1 i hterm rfl
  obtain ⟨f1, rfl⟩ : ∃ f, f1 = f + 1 := ⟨f1 - 1, by omega⟩
  unfold saFit
  rw [if_neg (by simpa using hc)]
  simp only [hv, Res.bind_ok, Strat.saSetMoveMade]
  cases hmm : self.moveMade with
  | false =>
    obtain ⟨st', rng', h⟩ := saOuter_still hstill ⟨t, maxIt, .int i, steps, reps⟩ cooling f2 hf2 steps
      (f1 + 1) t 0 self.visited (.sa t i 0 v false false) rng ⟨_, _, _, _, rfl⟩ (by simp) (by omega)
    rw [h, Res.bind_ok]
    exact ⟨_, _, _, rfl, rfl⟩
  | true =>
    rcases saRound_still hstill ⟨t, maxIt, .int i, steps, reps⟩ cooling f2 hf2 f1 t 0
      (by simpa using hsteps) self.visited (st := .sa t i 0 v false true) ⟨_, _, _, _, rfl⟩ rng with
      ⟨hr, st', rng', h⟩ | ⟨hr, t', st', rng', hst', h⟩
    · rw [h, Res.bind_ok]
      refine ⟨_, _, _, rfl, ?_⟩
      dsimp only at hr ⊢
      have : (reps - (self.visited.count (arrayList init) : Int)).toNat = 0 := by omega
      simp [this]
    · obtain ⟨st2, rng2, h2⟩ := saOuter_still hstill ⟨t, maxIt, .int i, steps, reps⟩ cooling f2 hf2 steps
        f1 t' 0 (self.visited ++ [arrayList init]) st' rng' hst' (by simp) (by omega)
      rw [h]
      simp only [if_true]
      rw [h2, Res.bind_ok]
      refine ⟨_, _, _, rfl, ?_⟩
      dsimp only at hr ⊢
      rw [List.append_assoc, ← List.replicate_one, List.replicate_append_replicate]
      congr 2
      rw [List.count_append, List.count_replicate_self]
      push_cast
      omega

/-- Two islands, three steps, at most two repetitions: two rounds; a second fit with the object: none. -/
example : (match saFit .rowMajor (fun _ => 0) (pairwise manhattan) 4 1 0 ⟨1, some 2, .int 10, 3, 2⟩
      .fresh islands4 (ramp 4) 2 (some ![0, 0, 1, 1]) (1/2) fun _ => 0 with
    | .ok (some L, s, _, _) => (arrayList L, s.visited.length, s.moveMade)
    | _ => ([], 0, true)) = ([0, 0, 1, 1], 2, false) := by decide +kernel

/-! ### C92 -/

/-- C92 for `AZP` with the default strategy: what an earlier fit left in the strategy does not matter. -/
theorem c92_azp_partial {n q : Nat} {ρ : Type} (o : MstOrder) (expf : ℚ → ℚ) (obj : Objective ρ)
    (fuel : Nat) (adj : Adj n) (attr : Fin n → ρ) (p : Int) (initial : Option (Labels n)) (v w : ℚ)
    (rng : Rng) :
    Rel (fun x y => x.1 = y.1 ∧ x.2.2 = y.2.2)
      (azpFit (q := q) o expf obj fuel adj attr p initial (.azp v) rng)
      (azpFit (q := q) o expf obj fuel adj attr p initial (.azp w) rng) :=
  Rel.mono (azpFit_sameStart o expf obj fuel adj attr p initial (st := .azp v)
    (st' := .azp w) (fun _ => rfl) rng) fun _ _ h => ⟨h.1, h.2.2⟩

/-- C92 for `AZP`: a second fit, with any arguments, gives what a new object gives. -/
theorem c92_azp_again_partial {n q : Nat} {ρ : Type} (o : MstOrder) (expf : ℚ → ℚ) (obj : Objective ρ)
    (fuel : Nat) {adj : Adj n} (hs : Symmetric adj) (attr : Fin n → ρ) (p : Int)
    (initial : Option (Labels n)) (v : ℚ) (rng : Rng) {L : Labels n} {used : Strat n q} {rng' : Rng}
    (h : azpFit o expf obj fuel adj attr p initial (.azp v) rng = .ok (L, used, rng'))
    (obj' : Objective ρ) (fuel' : Nat) (adj' : Adj n) (attr' : Fin n → ρ) (p' : Int)
    (initial' : Option (Labels n)) (rng'' : Rng) :
    Rel (fun x y => x.1 = y.1 ∧ x.2.2 = y.2.2)
      (azpFit o expf obj' fuel' adj' attr' p' initial' used rng'')
      (azpFit o expf obj' fuel' adj' attr' p' initial' (.azp 0 : Strat n q) rng'') := by
  have := azpFit_partial o expf obj hs attr fuel p initial (fun st => ∃ w, st = (.azp w : Strat n q))
    (by rintro _ _ ⟨w, rfl⟩; exact ⟨_, rfl⟩)
    (by
      rintro _ ⟨w, rfl⟩ k idx attr a r labels rng
      apply Res.post_partial.2
      rintro ⟨b, st, rng⟩ h
      unfold Strat.call at h
      split at h
      · cases h
      · split_ifs at h <;> cases h <;> exact ⟨_, rfl⟩)
    (.azp v) ⟨v, rfl⟩ rng
  rw [h] at this
  obtain ⟨⟨w, rfl⟩, -⟩ := this
  exact c92_azp_partial o expf obj' fuel' adj' attr' p' initial' w 0 rng''

/-- C92 for `AZPBasicTabu`. -/
theorem c92_basic_tabu_partial {n q : Nat} {ρ : Type} (o : MstOrder) (expf : ℚ → ℚ)
    (obj : Objective ρ) (fuel : Nat) (len : Option Nat) (reps : Int) (adj : Adj n) (attr : Fin n → ρ)
    (p : Int) (initial : Option (Labels n)) (v w : ℚ) (rng : Rng) :
    Rel (fun x y => x.1 = y.1 ∧ x.2.2 = y.2.2)
      (basicTabuFit (q := q) o expf obj fuel len reps adj attr p initial (.azp v) rng)
      (basicTabuFit (q := q) o expf obj fuel len reps adj attr p initial (.azp w) rng) :=
  Rel.mono (basicTabuFit_sameStart o expf obj fuel len reps adj attr p initial (st := .azp v)
    (st' := .azp w) (fun _ => rfl) rng) fun _ _ h => ⟨h.1, h.2.2⟩

/-- C92 for annealing: all that matters of earlier fits is how often each solution has been visited, and
whether the last step of the last fit made a move. -/
theorem c92_sa_partial {n : Nat} {ρ : Type} (o : MstOrder) (expf : ℚ → ℚ) (obj : Objective ρ)
    (f1 f2 f3 : Nat) (P : SaParams) (self self' : SaObj)
    (hv : ∀ x, self.visited.count x = self'.visited.count x) (hm : self.moveMade = self'.moveMade)
    (adj : Adj n) (attr : Fin n → ρ) (p : Int) (initial : Option (Labels n)) (cooling : ℚ) (rng : Rng) :
    Rel (fun x y => x.1 = y.1 ∧ (∀ l, x.2.1.visited.count l = y.2.1.visited.count l) ∧
        x.2.1.moveMade = y.2.1.moveMade ∧ x.2.2 = y.2.2)
      (saFit o expf obj f1 f2 f3 P self adj attr p initial cooling rng)
      (saFit o expf obj f1 f2 f3 P self' adj attr p initial cooling rng) := by
  unfold saFit
  split_ifs
  swap
  · rfl
  · refine Rel.same _ fun st => ?_
    rw [hm]
    refine (saOuter_sameCounts _ P cooling f2 f1 P.initTemperature 0 initial hv _ rng).bind ?_
    rintro ⟨L, vis, st, rng⟩ ⟨L', vis', st', rng'⟩ ⟨h1, h2, h3⟩
    dsimp only at h1 h2 h3
    cases h1
    cases h3
    exact ⟨rfl, h2, rfl, rfl⟩

/-- Annealing on the path 0-1-2-3 with attributes 0, 1, 2, 3 from the clustering 0, 1 | 2, 3, one AZP run
per round, at most one uphill move, stopping at the first repeated solution; `math.exp` is 1/2. -/
def saAgain (self : SaObj) (tape : Rng) : Res (Option (List Int) × SaObj) :=
  match saFit .rowMajor (fun _ => 1/2) (pairwise manhattan) 6 3 12 ⟨1, some 1, .int 1, 3, 1⟩ self path4
      (ramp 4) 2 (some ![0, 0, 1, 1]) (1/2) tape with
  | .ok (L, s, _, _) => .ok (L.map arrayList, s)
  | .raise e => .raise e
  | .timeout => .timeout

/-- C92 fails for annealing: the same arguments and the same random numbers give one clustering with a
new object and another one with an object that has been used before. -/
theorem c92_sa_differs : ∃ used,
    saAgain .fresh (fun _ => 1) = .ok (some [0, 0, 0, 1], used) ∧
    (∃ s, saAgain .fresh (fun i => i) = .ok (some [0, 1, 1, 1], s)) ∧
    (∃ s, saAgain used (fun i => i) = .ok (some [0, 0, 0, 1], s)) :=
  ⟨⟨[[0, 0, 0, 1]], true⟩, by decide +kernel,
    ⟨⟨[[0, 1, 1, 1], [0, 0, 0, 1]], true⟩, by decide +kernel⟩,
    ⟨⟨[[0, 0, 0, 1], [0, 1, 1, 1]], true⟩, by decide +kernel⟩⟩

/-- Reactive tabu search with the default `k1 = 100`, `k2 = 3` on the path 0-1-2-3 with one attribute. -/
def reactAgain (visited : List (List Int)) (values : Fin 4 → ℚ) (init : Labels 4) :
    Res (List Int × List (List Int)) :=
  match reactiveTabuFit (q := 0) .rowMajor (fun _ => 0) (pairwise manhattan) 10 100 3 path4
      (column values) 2 (some init) { ReactSelf.fresh (.azp 0) with visited := visited } (fun _ => 0) with
  | .ok (L, s, _) => .ok (arrayList L, s.visited)
  | .raise e => .raise e
  | .timeout => .timeout

/-- C92 fails for reactive tabu search: asked to improve the optimal clustering 0 | 1, 2, 3, a new object
returns it; an object used before returns the last solution of the earlier fit, which is worse. -/
theorem c92_reactive_differs : ∃ old,
    reactAgain [] ![0, 1, 2, 3] ![0, 0, 0, 1] = .ok ([0, 0, 1, 1], old) ∧
    reactAgain [] ![0, 10, 10, 10] ![0, 1, 1, 1] = .ok ([0, 1, 1, 1], [[0, 1, 1, 1]]) ∧
    reactAgain old ![0, 10, 10, 10] ![0, 1, 1, 1] = .ok ([0, 0, 1, 1], old ++ [[0, 1, 1, 1]]) ∧
    (pairwise manhattan).call ![0, 1, 1, 1] (column ![0, 10, 10, 10]) <
      (pairwise manhattan).call (![0, 0, 1, 1] : Labels 4) (column ![0, 10, 10, 10]) :=
  ⟨[[0, 0, 1, 1], [0, 0, 1, 1]], by decide +kernel, by decide +kernel, by decide +kernel,
    by decide +kernel⟩

end Region.Props
