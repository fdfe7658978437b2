import Verif.Props.Units
import Verif.Props.ExactResults
/-
Property theorems C140 and C141: the units of the spatially extensive attributes, and what happens if
the threshold is lowered.
-/
namespace Region.Props

open Region Spec Res

set_option synthInstance.maxSize 2000

/-- The second table of spatially extensive attributes and the second threshold say the same as the
first ones in other units: column `j` and its threshold are multiplied by `d j > 0`. -/
def OtherQuotaUnits {n q : Nat} (d : Fin q → ℚ) (spat : Fin n → Fin q → ℚ) (thr : Fin q → ℚ)
    (spat' : Fin n → Fin q → ℚ) (thr' : Fin q → ℚ) : Prop :=
  (∀ j, 0 < d j) ∧ (∀ i j, spat' i j = d j * spat i j) ∧ ∀ j, thr' j = d j * thr j

section
variable {n q : Nat} {ρ ρ' : Type} {c : ℚ} {metric : ρ → ρ → ℚ} {metric' : ρ' → ρ' → ℚ}
  {attr : Fin n → ρ} {attr' : Fin n → ρ'} {d : Fin q → ℚ} {spat spat' : Fin n → Fin q → ℚ}
  {thr thr' : Fin q → ℚ}

/-- C140: the max-p heuristic with AZP finds the same `max_p` and the same labels if the spatially
extensive attributes, the threshold and the attributes are measured in other units. -/
theorem c140_maxp_azp (h : OtherUnits c metric metric' attr attr')
    (hq : OtherQuotaUnits d spat thr spat' thr') (o : MstOrder) (expf : ℚ → ℚ)
    (fuel : Nat) (adj : Adj n) (maxIt : Nat) (st : Strat n q) (r : Rng) :
    maxpOf (maxpFit (azpSearch o expf (pairwise metric') fuel adj attr') metric' (pairwise metric')
        adj attr' spat' thr' maxIt (inUnits c st) r) =
      maxpOf (maxpFit (azpSearch o expf (pairwise metric) fuel adj attr) metric (pairwise metric)
        adj attr spat thr maxIt st r) :=
  maxpOf_eq (fun _ _ h => ⟨h.1, h.2.1⟩)
    (maxpFit_rel h.1 h.2 (azpSearch_alike o expf h.1 h.scalesOn fuel adj) (h.scalesOn id) adj ⟨d, hq⟩
      maxIt (inUnits_times c st) r)

/-- C140: with the basic tabu search as local search. -/
theorem c140_maxp_basic_tabu (h : OtherUnits c metric metric' attr attr')
    (hq : OtherQuotaUnits d spat thr spat' thr') (o : MstOrder)
    (expf : ℚ → ℚ) (fuel : Nat) (len : Option Nat) (reps : Int) (adj : Adj n)
    (maxIt : Nat) (st : Strat n q) (r : Rng) :
    maxpOf (maxpFit (basicTabuSearch o expf (pairwise metric') fuel len reps adj attr') metric'
        (pairwise metric') adj attr' spat' thr' maxIt (inUnits c st) r) =
      maxpOf (maxpFit (basicTabuSearch o expf (pairwise metric) fuel len reps adj attr) metric
        (pairwise metric) adj attr spat thr maxIt st r) :=
  maxpOf_eq (fun _ _ h => ⟨h.1, h.2.1⟩)
    (maxpFit_rel h.1 h.2 (basicTabuSearch_alike o expf h.1 h.scalesOn fuel len reps adj)
      (h.scalesOn id) adj ⟨d, hq⟩ maxIt (inUnits_times c st) r)

/-- C140: with the reactive tabu search as local search. -/
theorem c140_maxp_reactive_tabu (h : OtherUnits c metric metric' attr attr')
    (hq : OtherQuotaUnits d spat thr spat' thr') (o : MstOrder)
    (expf : ℚ → ℚ) (searchIt : Nat) (k1 k2 : Int) (adj : Adj n) (maxIt : Nat)
    (s : ReactSelf (Strat n q)) (r : Rng) :
    maxpOf (maxpFit (reactiveTabuSearch o expf (pairwise metric') searchIt k1 k2 adj attr') metric'
        (pairwise metric') adj attr' spat' thr' maxIt { s with strat := inUnits c s.strat } r) =
      maxpOf (maxpFit (reactiveTabuSearch o expf (pairwise metric) searchIt k1 k2 adj attr) metric
        (pairwise metric) adj attr spat thr maxIt s r) := by
  have hs : s.Corr (Strat.Times c) { s with strat := inUnits c s.strat } :=
    ⟨rfl, rfl, rfl, inUnits_times c s.strat⟩
  exact maxpOf_eq (fun _ _ h => ⟨h.1, h.2.1⟩)
    (maxpFit_rel h.1 h.2 (reactiveTabuSearch_alike o expf h.1 h.scalesOn searchIt k1 k2 adj)
      (h.scalesOn id) adj ⟨d, hq⟩ maxIt hs r)

/-- C140: with simulated annealing as local search. -/
theorem c140_maxp_sa (h : OtherUnits c metric metric' attr attr')
    (hq : OtherQuotaUnits d spat thr spat' thr') (o : MstOrder) (expf : ℚ → ℚ)
    (f1 f2 f3 : Nat) (P : SaParams) (adj : Adj n) (maxIt : Nat) (self : SaObj) (r : Rng) :
    maxpOf (maxpFit (saSearch o expf (pairwise metric') f1 f2 f3
        { P with initTemperature := c * P.initTemperature } adj attr') metric'
        (pairwise metric') adj attr' spat' thr' maxIt self r) =
      maxpOf (maxpFit (saSearch o expf (pairwise metric) f1 f2 f3 P adj attr) metric
        (pairwise metric) adj attr spat thr maxIt self r) :=
  maxpOf_eq (fun _ _ h => ⟨h.1, h.2.1⟩)
    (maxpFit_rel h.1 h.2 (saSearch_alike o expf h.1 h.scalesOn f1 f2 f3 P adj)
      (h.scalesOn id) adj ⟨d, hq⟩ maxIt rfl r)

end

/-- The same for the arguments of the exact method: one factor per column if there is a threshold for
each column, one factor for everything if the threshold is a number. -/
inductive OtherQuota {n : Nat} : Quota n → Quota n → Prop
  | scalar (s : Fin n → ℚ) (thr c : ℚ) (hc : 0 < c) :
    OtherQuota (.scalar s thr) (.scalar (fun i => c * s i) (c * thr))
  | rowsReal {q : Nat} (s : Fin n → Row q) (thr c : ℚ) (hc : 0 < c) :
    OtherQuota (.rowsReal s thr) (.rowsReal (fun i j => c * s i j) (c * thr))
  | rowsArray {q : Nat} (s s' : Fin n → Row q) (thr thr' : List ℚ) (c : Fin q → ℚ)
    (hc : ∀ j, 0 < c j) (hlen : thr'.length = thr.length) (hs : ∀ i j, s' i j = c j * s i j)
    (ht : ∀ j : Fin q, thr'.getD j 0 = c j * thr.getD j 0) :
    OtherQuota (.rowsArray s thr) (.rowsArray s' thr')

section
variable {n : Nat} {adj : Adj n} {quota quota' : Quota n}

theorem meetsThreshold_times {κ ι : Type} [DecidableEq κ] {labels : Fin n → κ}
    {s s' : Fin n → ι → ℚ} {t t' c : ι → ℚ} (hc : ∀ j, 0 < c j) (hs : ∀ i j, s' i j = c j * s i j)
    (ht : ∀ j, t' j = c j * t j) : MeetsThreshold labels s' t' ↔ MeetsThreshold labels s t := by
  unfold MeetsThreshold
  simp only [hs, ht, ← Finset.mul_sum, mul_le_mul_iff_right₀ (hc _)]

theorem OtherQuota.quotaMet (h : OtherQuota quota quota') {κ : Type} [DecidableEq κ]
    (labels : Fin n → κ) : QuotaMet labels quota' ↔ QuotaMet labels quota := by
  cases h with
  | scalar s thr c hc => exact meetsThreshold_times (fun _ => hc) (fun _ _ => rfl) fun _ => rfl
  | rowsReal s thr c hc => exact meetsThreshold_times (fun _ => hc) (fun _ _ => rfl) fun _ => rfl
  | rowsArray s s' thr thr' c hc hlen hs ht => exact meetsThreshold_times hc hs ht

theorem OtherQuota.cols (h : OtherQuota quota quota') :
    (∃ cols cols', quota.cols = .ok cols ∧ quota'.cols = .ok cols') ∨
      ∃ e, quota.cols = .raise e ∧ quota'.cols = .raise e := by
  cases h with
  | scalar => exact .inl ⟨_, _, rfl, rfl⟩
  | rowsReal => exact .inl ⟨_, _, rfl, rfl⟩
  | rowsArray s s' thr thr' c _ hlen =>
    unfold Quota.cols
    dsimp only
    rw [hlen]
    split_ifs
    · exact .inr ⟨_, rfl, rfl⟩
    · exact .inl ⟨_, _, rfl, rfl⟩

/-- C140 for the exact method: the same labels can be returned. -/
theorem c140_maxp_exact {m : Nat} {attr : Fin n → Row m} {metric : Metric} (hs : Spec.Symmetric adj)
    (h : OtherQuota quota quota') (hlen : ∃ cols, quota.cols = .ok cols)
    (hm : ∀ i j, i < j → 0 ≤ metric m (attr i) (attr j))
    (hpos : ∃ i j, i < j ∧ metric m (attr i) (attr j) ≠ 0)
    {L₀ : Labels n} (hL₀ : AllContiguous adj L₀) (hm₀ : QuotaMet L₀ quota) (L : Labels n) :
    (∃ s : Solver (OrderVar n), Correct s ∧ maxpExactFit adj attr quota' s metric = .ok L) ↔
      ∃ s : Solver (OrderVar n), Correct s ∧ maxpExactFit adj attr quota s metric = .ok L := by
  have hq : NumberOrArray quota ∧ NumberOrArray quota' := by cases h <;> exact ⟨trivial, trivial⟩
  have hlen' : ∃ cols, quota'.cols = .ok cols := by
    obtain ⟨cols, hc⟩ := hlen
    rcases h.cols with ⟨_, cols', -, h'⟩ | ⟨e, h', -⟩
    · exact ⟨cols', h'⟩
    · rw [hc] at h'; cases h'
  rw [c116_fit_maxp hs hq.1 hlen hm hpos hL₀ hm₀,
    c116_fit_maxp hs hq.2 hlen' hm hpos hL₀ ((h.quotaMet L₀).2 hm₀)]
  unfold MaxPOptimum
  simp only [h.quotaMet]

/-- C140: the exact method raises for the new arguments if and only if it does for the old ones, and
the same exception. -/
theorem c140_maxp_exact_raises {m : Nat} {attr : Fin n → Row m} {metric : Metric}
    (h : OtherQuota quota quota') (s s' : Solver (OrderVar n)) (e : Exc) :
    maxpExactFit adj attr quota' s' metric = .raise e ↔
      maxpExactFit adj attr quota s metric = .raise e := by
  unfold maxpExactFit
  cases hw : maxpWeight (fun i j => metric m (attr i) (attr j)) with
  | raise e' => simp [maxpLp, hw]
  | timeout => simp [maxpLp, hw]
  | ok w =>
    rcases h.cols with ⟨cols, cols', hc, hc'⟩ | ⟨e', hc, hc'⟩
    · rw [maxpLp_ok_iff.2 ⟨w, cols, hw, hc, rfl⟩, maxpLp_ok_iff.2 ⟨w, cols', hw, hc', rfl⟩]
      simp
    · simp [maxpLp, hw, hc, hc']

/-- C141: lowering the threshold (or raising the spatially extensive attributes) never makes the number
of regions found by the exact method smaller.  (The same does not hold for the heuristic, see
`c141_heuristic_loses`.) -/
theorem c141_exact_partial {m : Nat} {attr : Fin n → Row m} {metric : Metric} (hs : Spec.Symmetric adj)
    (hq : NumberOrArray quota) (hq' : NumberOrArray quota') (hlen : ∃ cols, quota.cols = .ok cols)
    (hlen' : ∃ cols, quota'.cols = .ok cols)
    (hm : ∀ i j, i < j → 0 ≤ metric m (attr i) (attr j))
    (hpos : ∃ i j, i < j ∧ metric m (attr i) (attr j) ≠ 0)
    (hlower : ∀ L : Labels n, QuotaMet L quota → QuotaMet L quota')
    {L₀ : Labels n} (hL₀ : AllContiguous adj L₀) (hm₀ : QuotaMet L₀ quota)
    {s s' : Solver (OrderVar n)} (hsol : Correct s) (hsol' : Correct s') {L L' : Labels n}
    (h : maxpExactFit adj attr quota s metric = .ok L)
    (h' : maxpExactFit adj attr quota' s' metric = .ok L') : numRegions L ≤ numRegions L' := by
  have h1 := (c116_fit_maxp hs hq hlen hm hpos hL₀ hm₀ L).1 ⟨s, hsol, h⟩
  have h2 := (c116_fit_maxp hs hq' hlen' hm hpos hL₀ (hlower _ hm₀) L').1 ⟨s', hsol', h'⟩
  exact (h2.1.2.2 L h1.1.1 (hlower _ h1.1.2.1)).1

end

/-! ### Lowering the threshold can cost regions in the heuristic -/

/-- Two areas next to each other and a path of four. -/
def pairPath6 : Adj 6 := fun i j => decide ((i.val, j.val) ∈
  [(0, 1), (1, 0), (2, 3), (3, 2), (3, 4), (4, 3), (4, 5), (5, 4)])

def pairPath6Attr : Fin 6 → Row 1 := column ![0, 0, 0, 5, 5, 10]

def pairPath6Spat : Fin 6 → Fin 1 → ℚ := fun i _ => ![10, 1, 6, 6, 6, 6] i

def pairPath6Tape : Rng := fun k => if k = 1 then 2 else 0

/-- `max_p` and the labels found on this map with threshold `t`. -/
def pairPath6Fit (t : ℚ) : Nat × List Int :=
  match maxpFit (azpSearch .rowMajor (fun _ => 0) (pairwise manhattan) 20 pairPath6 pairPath6Attr)
      manhattan (pairwise manhattan) pairPath6 pairPath6Attr pairPath6Spat (fun _ => t) 1 (.azp 0)
      pairPath6Tape with
  | .ok (p, some L, _, _) => (p, arrayList L)
  | _ => (0, [])

/-- C141 fails for the heuristic: for the same draws the threshold 11 leads to three regions and the lower
threshold 10 to two. -/
theorem c141_heuristic_loses :
    pairPath6Fit 11 = (3, [0, 0, 1, 1, 2, 2]) ∧ pairPath6Fit 10 = (2, [0, 0, 1, 1, 1, 1]) := by
  decide +kernel

/-! ### Concrete cases -/

/-- The hypotheses of the theorems on the heuristic: thousands instead of units, and another factor for
the attributes. -/
example : OtherUnits 2 manhattan manhattan pairPath6Attr (column ![0, 0, 0, 10, 10, 20]) ∧
    OtherQuotaUnits (fun _ => 1 / 1000) pairPath6Spat (fun _ => 11)
      (fun i j => 1 / 1000 * pairPath6Spat i j) (fun _ => 1 / 1000 * 11) :=
  ⟨⟨by norm_num, by decide +kernel⟩, fun _ => by norm_num, fun _ _ => rfl, fun _ => rfl⟩

/-- A threshold for each of two columns; only the first column is converted. -/
example : OtherQuota (n := 4) (.rowsArray (fun _ => ![1, 2]) [2, 3]) (.rowsArray (fun _ => ![5, 2]) [10, 3]) :=
  .rowsArray _ _ _ _ ![5, 1] (by decide +kernel) rfl (by decide +kernel) (by decide +kernel)

/-- The hypotheses of `c140_maxp_exact` hold on the path of four areas. -/
example : OtherQuota pathQuota (match pathQuota with
      | .scalar s t => .scalar (fun i => 7 * s i) (7 * t)
      | x => x) ∧
    (∃ cols, pathQuota.cols = .ok cols) ∧
    (∃ i j : Fin 4, i < j ∧ manhattanM 1 (ramp 4 i) (ramp 4 j) ≠ 0) ∧
    AllContiguous path4 (![0, 0, 1, 1] : Labels 4) ∧ QuotaMet (![0, 0, 1, 1] : Labels 4) pathQuota :=
  ⟨.scalar _ _ 7 (by norm_num), ⟨_, rfl⟩, by decide +kernel, path4_cont, path4_quota⟩

/-- A lower number as threshold is a lower threshold in the sense of `c141_exact_partial`. -/
theorem lower_scalar {n : Nat} (s : Fin n → ℚ) {t t' : ℚ} (h : t' ≤ t) (L : Labels n)
    (hL : QuotaMet L (.scalar s t)) : QuotaMet L (.scalar s t') :=
  fun v j => h.trans (hL v j)

/-- The hypotheses of `c141_exact_partial` hold on the path, with thresholds 2 and 1. -/
example : (∀ L : Labels 4, QuotaMet L (.scalar (fun _ => 1) 2) → QuotaMet L (.scalar (fun _ => 1) 1)) ∧
    QuotaMet (![0, 0, 1, 1] : Labels 4) (.scalar (fun _ => 1) 2) ∧
    AllContiguous path4 (![0, 0, 1, 1] : Labels 4) :=
  ⟨lower_scalar _ (by norm_num), path4_quota, path4_cont⟩

end Region.Props
