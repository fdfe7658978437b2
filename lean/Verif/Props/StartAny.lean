import Verif.Lemmas.StartIslands
import Verif.Props.Start
/-
Property theorems C105 for all methods: no initial labels are like those of a cut of the spanning forest.
-/
namespace Region.Props

open Region Spec

section
variable {n q : Nat} {ρ : Type} (o : MstOrder) (expf : ℚ → ℚ) (adj : Adj n)

/-- C105 for AZP with any strategy and any objective, on any map: without initial labels the possible results,
together with what is left in the strategy, are those with initial labels one gets by cutting links of a certain
spanning forest. -/
theorem c105_azp_any : ∃ F, SpanningLinks adj F ∧ ∀ p : Nat, 2 ≤ p → p ≤ n → nComponents adj ≤ p →
    ∀ (obj : Objective ρ) (attr : Fin n → ρ) (fuel : Nat) (st : Strat n q) (L : Labels n) (st' : Strat n q),
    (∃ rng rng', azpFit o expf obj fuel adj attr p none st rng = .ok (L, st', rng')) ↔
      ∃ init, CutFrom adj F p init ∧
        ∃ rng rng', azpFit o expf obj fuel adj attr p (some init) st rng = .ok (L, st', rng') := by
  refine ⟨forestOf o adj, forestOf_spans, fun p h2 hpn hc obj attr fuel st L st' => ⟨?_, ?_⟩⟩
  · rintro ⟨rng, rng', h⟩
    obtain ⟨init, r1, h1, -, h2⟩ := azpFit_none_start h2 hpn hc h
    exact ⟨init, h1, r1, _, h2⟩
  · rintro ⟨init, hi, rng, rng', h⟩
    obtain ⟨r0, h1⟩ := azpFit_start_none h2 hpn hc hi h
    exact ⟨r0, _, h1⟩

/-- The same for the basic tabu search. -/
theorem c105_basic_tabu_any : ∃ F, SpanningLinks adj F ∧ ∀ p : Nat, 2 ≤ p → p ≤ n → nComponents adj ≤ p →
    ∀ (obj : Objective ρ) (attr : Fin n → ρ) (fuel : Nat) (len : Option Nat) (reps : Int) (st : Strat n q)
      (L : Labels n) (st' : Strat n q),
    (∃ rng rng', basicTabuFit o expf obj fuel len reps adj attr p none st rng = .ok (L, st', rng')) ↔
      ∃ init, CutFrom adj F p init ∧
        ∃ rng rng', basicTabuFit o expf obj fuel len reps adj attr p (some init) st rng =
          .ok (L, st', rng') := by
  refine ⟨forestOf o adj, forestOf_spans, fun p h2 hpn hc obj attr fuel len reps st L st' => ?_⟩
  unfold basicTabuFit
  exact fitWith_none_iff (fun _ a init _ _ =>
    basicComponent_reads (strat_ops_reads expf _ _ obj) obj _ a len reps fuel init _) h2 hpn hc

/-- The same for the reactive tabu search. -/
theorem c105_reactive_tabu_any : ∃ F, SpanningLinks adj F ∧ ∀ p : Nat, 2 ≤ p → p ≤ n → nComponents adj ≤ p →
    ∀ (obj : Objective ρ) (attr : Fin n → ρ) (maxIt : Nat) (k1 k2 : Int) (self : ReactSelf (Strat n q))
      (L : Labels n) (self' : ReactSelf (Strat n q)),
    (∃ rng rng', reactiveTabuFit o expf obj maxIt k1 k2 adj attr p none self rng = .ok (L, self', rng')) ↔
      ∃ init, CutFrom adj F p init ∧
        ∃ rng rng', reactiveTabuFit o expf obj maxIt k1 k2 adj attr p (some init) self rng =
          .ok (L, self', rng') := by
  refine ⟨forestOf o adj, forestOf_spans, fun p h2 hpn hc obj attr maxIt k1 k2 self L self' => ?_⟩
  unfold reactiveTabuFit
  refine fitWith_none_iff (fun idx a init at' self => ?_) h2 hpn hc
  refine Reads.bind (reactComponentList_reads (strat_ops_reads expf _ _ obj) obj _ a maxIt k1 k2 init
    ⟨self.visited, self.avg, self.repCounter, self.strat.start (obj.call init at'), fun _ => 0⟩) fun y => ?_
  try dsimp only
  exact Reads.then_ _ fun l => Reads.pure (mk := mk2) (l, ReactSelf.mk _ _ _ _)

end

/-- The hypotheses are met by two islands with two areas each and three regions. -/
example := (c105_basic_tabu_any (q := 0) (ρ := Row 1) .rowMajor (fun _ => 0) islands4).imp fun _ h =>
  h.2 3 (by decide) (by decide) (by decide +kernel) (pairwise manhattan) (ramp 4) 100 (some 1) 3 (.azp 0)

end Region.Props
