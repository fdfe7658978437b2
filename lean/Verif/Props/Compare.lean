import Verif.Lemmas.Refine
import Verif.Props.Skater
import Verif.Props.MaxPExact
import Verif.Props.AzpSa
/-
Property theorems C84-C86: the number of regions and the objective, and the exact methods against the
heuristics.
-/
namespace Region.Props

open Region Skater Spec Finset

/-! ### C84 -/

/-- C84: a finer clustering never has a larger objective. -/
theorem c84_finer {n : Nat} {ρ : Type} {metric : ρ → ρ → ℚ} {attr : Fin n → ρ}
    (hd : ∀ i j, i < j → 0 ≤ metric (attr i) (attr j)) {fine coarse : Labels n}
    (h : Refines fine coarse) :
    (pairwise metric).call fine attr ≤ (pairwise metric).call coarse attr := by
  rw [c18_pairwise, c18_pairwise]
  exact withinPairs_refines h hd

/-- C84: unless every area is a region of its own, one region can be split into two contiguous ones, and
the objective does not get larger. -/
theorem c84_one_more {n p : Nat} {ρ : Type} {metric : ρ → ρ → ℚ} {attr : Fin n → ρ}
    (hd : ∀ i j, i < j → 0 ≤ metric (attr i) (attr j)) {adj : Adj n} {L : Labels n}
    (hL : Feasible adj L p) (hp : p < n) :
    ∃ L' : Labels n, Feasible adj L' (p + 1) ∧ SplitsOne L' L ∧
      (pairwise metric).call L' attr ≤ (pairwise metric).call L attr := by
  obtain ⟨L', h1, h2⟩ := exists_refinement hL hp
  exact ⟨L', h1, h2, c84_finer hd h2.1⟩

/-- C84: clusterings into more regions exist, up to one region for every area. -/
theorem c84_any_more {n p : Nat} {ρ : Type} {metric : ρ → ρ → ℚ} {attr : Fin n → ρ}
    (hd : ∀ i j, i < j → 0 ≤ metric (attr i) (attr j)) {adj : Adj n} {L : Labels n}
    (hL : Feasible adj L p) (k : Nat) (hp : p + k ≤ n) :
    ∃ L' : Labels n, Feasible adj L' (p + k) ∧ Refines L' L ∧
      (pairwise metric).call L' attr ≤ (pairwise metric).call L attr := by
  induction k with
  | zero => exact ⟨L, hL, fun _ _ h => h, le_rfl⟩
  | succ k ih =>
    obtain ⟨M, h1, h2, h3⟩ := ih (by omega)
    obtain ⟨N, h4, h5, h6⟩ := c84_one_more hd h1 (by omega)
    exact ⟨N, h4, fun a b h => h2 a b (h5.1 a b h), h6.trans h3⟩

/-- C84: with as many regions as areas the objective is 0. -/
theorem c84_singletons {n : Nat} {ρ : Type} (metric : ρ → ρ → ℚ) (attr : Fin n → ρ) {L : Labels n}
    (hL : numRegions L = n) : (pairwise metric).call L attr = 0 := by
  have hinj : Function.Injective L := by
    have : (univ.image L).card = (univ : Finset (Fin n)).card := by
      unfold numRegions at hL; simpa using hL
    exact fun a b h => card_image_iff.1 this (mem_coe.2 (mem_univ a)) (mem_coe.2 (mem_univ b)) h
  rw [c18_pairwise]
  unfold withinPairs
  rw [filter_eq_empty_iff.2 fun e _ he => absurd (hinj he.2) (ne_of_lt he.1), sum_empty]

/-- C84 for the exact method: more regions never make the result worse. -/
theorem c84_exact_monotone {n : Nat} {adj : Adj n} {metric : Metric} {attr : Fin n → Row 1}
    (hs : Spec.Symmetric adj) {p k : Nat} (hp : 0 < p) (h2 : p + k + 2 ≤ n)
    (hm : ∀ i j, i < j → 0 ≤ metric 1 (attr i) (attr j)) {L₀ : Labels n} (h₀ : Feasible adj L₀ p)
    {s : Solvers n} (hc : Correct s.order) (r r' : Rng) :
    ∃ L M : Labels n, exactFit adj attr p .order s metric r = .ok (arrayList L) ∧
      exactFit adj attr (p + k : Nat) .order s metric r' = .ok (arrayList M) ∧
      (pairwise (metric 1)).call M attr ≤ (pairwise (metric 1)).call L attr := by
  obtain ⟨L, h1, h3, -⟩ := c54_fit_order (metric := metric) hs (p := p) (by omega) (by omega) hm
    (by simpa using h₀) hc r
  obtain ⟨L', h4, -, h5⟩ := c84_any_more hm h3 k (by simp; omega)
  obtain ⟨M, h6, -, h7⟩ := c54_fit_order (metric := metric) hs (p := (p + k : Nat)) (by omega)
    (by push_cast; omega) hm (L₀ := L') h4 hc r'
  exact ⟨L, M, h1, h6, (h7 L' h4).trans h5⟩

/-- The path of four areas in two regions, and a finer clustering. -/
example : Feasible path4 (![0, 0, 1, 1] : Labels 4) 2 ∧
    Refines (![0, 0, 1, 2] : Labels 4) (![0, 0, 1, 1] : Labels 4) ∧
    (pairwise manhattan).call ![0, 0, 1, 2] (ramp 4) = 1 ∧
    (pairwise manhattan).call ![0, 0, 1, 1] (ramp 4) = 2 :=
  ⟨path4_feasible2, by unfold Refines; decide, by decide +kernel, by decide +kernel⟩

example : Spec.Symmetric path5 ∧ 2 + 1 + 2 ≤ 5 ∧ Feasible path5 (![0, 0, 1, 1, 1] : Labels 5) 2 ∧
    ∀ i j : Fin 5, i < j → 0 ≤ manhattanM 1 (ramp 5 i) (ramp 5 j) :=
  ⟨by unfold Spec.Symmetric; decide +kernel, by decide,
    ⟨((c04_assert_feasible_ok ![0, 0, 1, 1, 1] path5 none).1 (by decide +kernel)).1, by decide +kernel⟩,
    by decide +kernel⟩

/-! ### C85 -/

/-- `labels` is what one of the heuristics for the p-regions problem left in `labels_` when asked for `p`
regions, with or without initial labels, whatever the parameters, the earlier use of the object and the
random draws. -/
inductive Heuristic {n : Nat} {ρ : Type} (metric : ρ → ρ → ℚ) (adj : Adj n) (attr : Fin n → ρ)
    (p : Nat) (labels : Labels n) : Prop
  | azp (o : MstOrder) (expf : ℚ → ℚ) (obj : Objective ρ) (fuel q : Nat)
      (initial : Option (Labels n)) (st st' : Strat n q) (r r' : Rng)
      (h : azpFit o expf obj fuel adj attr p initial st r = .ok (labels, st', r'))
  | sa (o : MstOrder) (expf : ℚ → ℚ) (obj : Objective ρ) (f1 f2 f3 : Nat) (P : SaParams)
      (self self' : SaObj) (initial : Option (Labels n))
      (hinit : ∀ L, initial = some L → Feasible adj L p) (cooling : ℚ) (st' : Strat n 0) (r r' : Rng)
      (h : saFit o expf obj f1 f2 f3 P self adj attr p initial cooling r =
        .ok (some labels, self', st', r'))
  | basicTabu (hd : Dissimilarity metric) (o : MstOrder) (expf : ℚ → ℚ) (fuel q : Nat)
      (len : Option Nat) (reps : Int) (initial : Option (Labels n)) (v : ℚ) (st' : Strat n q)
      (r r' : Rng)
      (h : basicTabuFit o expf (pairwise metric) fuel len reps adj attr p initial (.azp v) r =
        .ok (labels, st', r'))
  | skater (o : WeightOrder) (S : SpanningForest) (fuel : Nat) (k : Option Int)
      (data : Option (Σ m : Nat, Fin n → Row m)) (quorum : Option ℚ) (trace : Bool)
      (islands : String) (f : Outcome n) (h : fit o S fuel k adj data quorum trace islands = .ok f)
      (hlab : labels = f.labels) (hnum : numRegions f.labels = p)

/-- What they leave is a clustering into `p` contiguous regions. -/
theorem heuristic_feasible {n : Nat} {ρ : Type} {metric : ρ → ρ → ℚ} {adj : Adj n}
    (hs : Spec.Symmetric adj) {attr : Fin n → ρ} {p : Nat} {labels : Labels n}
    (h : Heuristic metric adj attr p labels) : Feasible adj labels p := by
  cases h with
  | azp o expf obj fuel q initial st st' r r' h =>
    rw [azpFit_eq_fitAny] at h
    cases initial with
    | none => exact c22_any_strategy o hs attr _ _ fuel p st r h
    | some init => exact (c21_fit_keeps_feasible o hs attr _ _ fuel p init st r h).2.1
  | sa o expf obj f1 f2 f3 P self self' initial hinit cooling st' r r' h =>
    exact (c29_feasible o expf obj f1 f2 f3 P self hs attr p initial hinit cooling r h).2 _ rfl
  | basicTabu hd o expf fuel q len reps initial v st' r r' h =>
    exact c34_result_feasible o expf hd attr p initial len reps fuel v r h
  | skater o S fuel k data quorum trace islands f h hlab hnum =>
    subst hlab
    exact ⟨(c59_contiguous h).1, hnum⟩

/-- C85: if any heuristic finds a clustering into `n_regions` regions, the order model with a working
solver finds one as well, and none of the heuristics finds a better one. -/
theorem c85_exact_not_worse {n : Nat} {adj : Adj n} {metric : Metric} {attr : Fin n → Row 1}
    (hs : Spec.Symmetric adj) {p : Nat} (hp : 0 < p) (h2 : p + 2 ≤ n)
    (hm : ∀ i j, i < j → 0 ≤ metric 1 (attr i) (attr j)) {s : Solvers n} (hc : Correct s.order) (r : Rng)
    {H : Labels n} (hH : Heuristic (metric 1) adj attr p H) :
    ∃ L : Labels n, exactFit adj attr p .order s metric r = .ok (arrayList L) ∧ Feasible adj L p ∧
      ∀ L', Heuristic (metric 1) adj attr p L' →
        (pairwise (metric 1)).call L attr ≤ (pairwise (metric 1)).call L' attr := by
  obtain ⟨L, h1, h3, h4⟩ := c54_fit_order (metric := metric) hs (p := p) (by omega) (by omega) hm
    (by simpa using heuristic_feasible hs hH) hc r
  exact ⟨L, h1, by simpa using h3, fun L' h => h4 L' (by simpa using heuristic_feasible hs h)⟩

/-- C85 for the tree model, if no two areas are alike. -/
theorem c85_tree_not_worse {n : Nat} {adj : Adj n} {metric : Metric} {attr : Fin n → Row 1}
    (hs : Spec.Symmetric adj) {p : Nat} (hp : 0 < p) (h2 : p + 2 ≤ n)
    (hm : ∀ i j, i < j → 0 < metric 1 (attr i) (attr j)) {s : Solvers n} (hc : Correct s.tree) (r : Rng)
    {H : Labels n} (hH : Heuristic (metric 1) adj attr p H) :
    ∃ L : Labels n, exactFit adj attr p .tree s metric r = .ok (arrayList L) ∧ Feasible adj L p ∧
      ∀ L', Heuristic (metric 1) adj attr p L' →
        (pairwise (metric 1)).call L attr ≤ (pairwise (metric 1)).call L' attr := by
  obtain ⟨L, h1, h3, h4⟩ := c54_fit_tree (metric := metric) hs (p := p) (by omega) (by omega) hm
    (by simpa using heuristic_feasible hs hH) hc r
  exact ⟨L, h1, by simpa using h3, fun L' h => h4 L' (by simpa using heuristic_feasible hs h)⟩

/-- AZP on the path of four areas with two regions. -/
example : ∃ L, Heuristic (manhattanM 1) path4 (ramp 4) 2 L := by
  obtain ⟨L, st, r, h, -⟩ := c22_fit_from_scratch (q := 0) .rowMajor (fun _ => 0)
    (obj := pairwise (manhattanM 1)) (c24_pairwise manhattan_comm manhattan_self).1
    (c24_pairwise manhattan_comm manhattan_self).2 path4_symm (ramp 4) 2 (by omega) (by omega)
    (by decide +kernel) 300 (by decide) (.azp 0) (fun _ => 0)
  exact ⟨L, .azp _ _ _ _ _ _ _ _ _ _ h⟩

/-! ### C86 -/

section
variable {n q m : Nat} {metric : Metric} {adj : Adj n} {attr : Fin n → Row m} {spat : Fin n → Row q}
  {thr : ℚ}

/-- C86: the exact max-p method finds at least as many regions as any clustering into contiguous regions
that reach the threshold, and with as many a value at most as large. -/
theorem exact_maxp_best (hs : Spec.Symmetric adj)
    (hm : ∀ i j, i < j → 0 ≤ metric m (attr i) (attr j))
    (hpos : ∃ i j, i < j ∧ metric m (attr i) (attr j) ≠ 0) {H : Labels n} (hH : AllContiguous adj H)
    (hmeet : MeetsThreshold H spat fun _ => thr) {s : Solver (OrderVar n)} (hcor : Correct s) :
    ∃ L : Labels n, maxpExactFit adj attr (.rowsReal spat thr) s metric = .ok L ∧
      AllContiguous adj L ∧ MeetsThreshold L spat (fun _ => thr) ∧
      numRegions H ≤ numRegions L ∧ (numRegions H = numRegions L →
        (pairwise (metric m)).call L attr ≤ (pairwise (metric m)).call H attr) := by
  obtain ⟨L, h1, h2, h3, h4⟩ := c57_fit (metric := metric) (quota := .rowsReal spat thr) hs trivial
    ⟨_, rfl⟩ hm hpos hH hmeet hcor
  exact ⟨L, h1, h2, h3, h4 H hH hmeet⟩

open Classical in
/-- C86: the exact max-p method finds at least as many regions as the heuristic with AZP as local
search, and with as many a value at most as large. -/
theorem c86_azp (o : MstOrder) (expf : ℚ → ℚ) (hs : Spec.Symmetric adj)
    (hloop : ∀ v, adj v v = false) (hsym : ∀ x y, metric m x y = metric m y x)
    (hzero : ∀ x, metric m x x = 0) (hm : ∀ i j, i < j → 0 ≤ metric m (attr i) (attr j))
    (hpos : ∃ i j, i < j ∧ metric m (attr i) (attr j) ≠ 0) (hspat : ∀ v j, 0 ≤ spat v j)
    (htot : ∀ v j, thr ≤ ∑ u ∈ univ.filter (fun u => SameIsland adj v u), spat u j) (maxIt : Nat)
    (hit : 0 < maxIt) (fuel : Nat) (hf : n + n ^ n < fuel) (st : Strat n q) (r : Rng)
    {s : Solver (OrderVar n)} (hcor : Correct s) :
    ∃ p H st' r', maxpFit (azpSearch o expf (pairwise (metric m)) fuel adj attr) (metric m)
        (pairwise (metric m)) adj attr spat (fun _ => thr) maxIt st r = .ok (p, some H, st', r') ∧
      ∃ L : Labels n, maxpExactFit adj attr (.rowsReal spat thr) s metric = .ok L ∧
        p ≤ numRegions L ∧ (p = numRegions L →
          (pairwise (metric m)).call L attr ≤ (pairwise (metric m)).call H attr) := by
  obtain ⟨p, H, st', r', h1, h2, h3, -⟩ := c43_fit o expf (c24_pairwise hsym hzero).1
    (c24_pairwise hsym hzero).2 (metric m) hs hloop attr spat (fun _ => thr) hspat htot maxIt hit fuel hf
    st r
  obtain ⟨L, h4, -, -, h5, h6⟩ := exact_maxp_best (metric := metric) hs hm hpos h2.1 h3 hcor
  rw [h2.2] at h5 h6
  exact ⟨p, H, st', r', h1, L, h4, h5, h6⟩

/-- C86 with basic tabu search as local search. -/
theorem c86_basic_tabu (o : MstOrder) (expf : ℚ → ℚ) (hs : Spec.Symmetric adj)
    (hm : ∀ i j, i < j → 0 ≤ metric m (attr i) (attr j))
    (hpos : ∃ i j, i < j ∧ metric m (attr i) (attr j) ≠ 0) (hspat : ∀ v j, 0 ≤ spat v j)
    (maxIt fuel : Nat) (len : Option Nat) (reps : Int) (st : Strat n q) (r : Rng) {p : Nat}
    {H : Labels n} {st' : Strat n q} {r' : Rng}
    (h : maxpFit (basicTabuSearch o expf (pairwise (metric m)) fuel len reps adj attr) (metric m)
      (pairwise (metric m)) adj attr spat (fun _ => thr) maxIt st r = .ok (p, some H, st', r'))
    {s : Solver (OrderVar n)} (hcor : Correct s) :
    ∃ L : Labels n, maxpExactFit adj attr (.rowsReal spat thr) s metric = .ok L ∧
      numRegions H ≤ numRegions L ∧ (numRegions H = numRegions L →
        (pairwise (metric m)).call L attr ≤ (pairwise (metric m)).call H attr) := by
  obtain ⟨h1, h2, -⟩ := c45_basic_tabu_partial o expf (metric m) hs attr spat (fun _ => thr)
    hspat maxIt fuel len reps st r h
  obtain ⟨L, h4, -, -, h5⟩ := exact_maxp_best (metric := metric) hs hm hpos h1 h2 hcor
  exact ⟨L, h4, h5⟩

/-- C86 with reactive tabu search as local search, on a connected map. -/
theorem c86_reactive_tabu (o : MstOrder) (expf : ℚ → ℚ) (hs : Spec.Symmetric adj)
    (hcon : Connected adj)
    (hm : ∀ i j, i < j → 0 ≤ metric m (attr i) (attr j))
    (hpos : ∃ i j, i < j ∧ metric m (attr i) (attr j) ≠ 0) (hspat : ∀ v j, 0 ≤ spat v j)
    (maxIt searchIt : Nat) (k1 k2 : Int) (st : Strat n q) (r : Rng) {p : Nat}
    {H : Labels n} {self' : ReactSelf (Strat n q)} {r' : Rng}
    (h : maxpFit (reactiveTabuSearch o expf (pairwise (metric m)) searchIt k1 k2 adj attr) (metric m)
      (pairwise (metric m)) adj attr spat (fun _ => thr) maxIt (.fresh st) r =
        .ok (p, some H, self', r'))
    {s : Solver (OrderVar n)} (hcor : Correct s) :
    ∃ L : Labels n, maxpExactFit adj attr (.rowsReal spat thr) s metric = .ok L ∧
      numRegions H ≤ numRegions L ∧ (numRegions H = numRegions L →
        (pairwise (metric m)).call L attr ≤ (pairwise (metric m)).call H attr) := by
  obtain ⟨h1, h2, -⟩ := c45_reactive_tabu_partial o expf (metric m) hs hcon attr spat
    (fun _ => thr) hspat maxIt searchIt k1 k2 st r h
  obtain ⟨L, h4, -, -, h5⟩ := exact_maxp_best (metric := metric) hs hm hpos h1 h2 hcor
  exact ⟨L, h4, h5⟩

end

/-- The comparison is not idle: on a path of four areas with weights 1 and threshold 2 the heuristic with
one iteration can end with a single region, although `0, 1 | 2, 3` reaches the threshold. -/
theorem c86_heuristic_can_miss :
    (match maxpFit (azpSearch .rowMajor (fun _ => 0) (pairwise manhattan) 20 path4 (ramp 4))
        manhattan (pairwise manhattan) path4 (ramp 4) (fun _ (_ : Fin 1) => 1) (fun _ => 2) 1 (.azp 0)
        (fun _ => 1) with
      | .ok (p, some L, _, _) => (p, arrayList L)
      | _ => (0, [])) = (1, [0, 0, 0, 0]) ∧
    Feasible path4 (![0, 0, 1, 1] : Labels 4) 2 ∧
    MeetsThreshold (![0, 0, 1, 1] : Labels 4) (fun _ (_ : Fin 1) => 1) (fun _ => 2) := by
  refine ⟨by decide +kernel, path4_feasible2, ?_⟩
  unfold MeetsThreshold
  decide +kernel

/-- The other hypotheses of C86 hold for it. -/
example : (∀ v, path4 v v = false) ∧
    (∀ i j : Fin 4, i < j → 0 ≤ manhattanM 1 (ramp 4 i) (ramp 4 j)) ∧
    (∃ i j : Fin 4, i < j ∧ manhattanM 1 (ramp 4 i) (ramp 4 j) ≠ 0) :=
  ⟨by decide, by decide +kernel, 0, 1, by decide +kernel⟩

/-! ### C87 -/

/-- C87: the regions share the total, so that there are at most `total / threshold` of them. -/
theorem c87_bound {n q : Nat} {L : Labels n} {spat : Fin n → Fin q → ℚ} {thr : Fin q → ℚ}
    (h : MeetsThreshold L spat thr) (j : Fin q) : (numRegions L : ℚ) * thr j ≤ ∑ v, spat v j := by
  rw [← sum_fiberwise_of_maps_to (s := univ) (t := univ.image L) (g := L)
    (fun v _ => mem_image_of_mem _ (mem_univ v)) (fun v => spat v j)]
  have : ∀ c ∈ univ.image L, thr j ≤ ∑ v ∈ univ.filter (fun v => L v = c), spat v j := by
    intro c hc
    obtain ⟨v, -, rfl⟩ := mem_image.1 hc
    exact h v j
  have := card_nsmul_le_sum _ _ _ this
  rwa [nsmul_eq_mul] at this

open Classical in
/-- C87 for the heuristic. -/
theorem c87_heuristic {n q : Nat} {ρ : Type} (o : MstOrder) (expf : ℚ → ℚ) {obj : Objective ρ}
    (he : obj.Exact) (ht : obj.Total) (metric : ρ → ρ → ℚ) {adj : Adj n} (hs : Spec.Symmetric adj)
    (hloop : ∀ v, adj v v = false) (attr : Fin n → ρ) (spat : Fin n → Fin q → ℚ) (thr : Fin q → ℚ)
    (hpos : ∀ v j, 0 ≤ spat v j)
    (htot : ∀ v j, thr j ≤ ∑ u ∈ univ.filter (fun u => SameIsland adj v u), spat u j)
    (maxIt : Nat) (hit : 0 < maxIt) (fuel : Nat) (hf : n + n ^ n < fuel) (st : Strat n q) (r : Rng) :
    ∃ p L st' r', maxpFit (azpSearch o expf obj fuel adj attr) metric obj adj attr spat thr maxIt st r =
        .ok (p, some L, st', r') ∧ ∀ j, (p : ℚ) * thr j ≤ ∑ v, spat v j := by
  obtain ⟨p, L, st', r', h1, h2, h3, -⟩ := c43_fit o expf he ht metric hs hloop attr spat thr hpos htot
    maxIt hit fuel hf st r
  exact ⟨p, L, st', r', h1, fun j => h2.2 ▸ c87_bound h3 j⟩

theorem construct_add {n q : Nat} {ρ : Type} (metric : ρ → ρ → ℚ) (adj : Adj n) (attr : Fin n → ρ)
    (spat : Fin n → Fin q → ℚ) (thr : Fin q → ℚ) (a b : Nat) :
    ∀ (p : Nat) (kept : List (List (List (Fin n)) × List (Fin n))) (r : Rng),
      construct metric adj attr spat thr (a + b) p kept r =
        construct metric adj attr spat thr a p kept r >>= fun x =>
          construct metric adj attr spat thr b x.1 x.2.1 x.2.2 := by
  induction a with
  | zero => intro p kept r; rw [Nat.zero_add]; rfl
  | succ a ih =>
    intro p kept r
    rw [Nat.succ_add]
    simp only [construct]
    cases growRegions metric adj attr spat thr r with
    | raise e => rfl
    | timeout => rfl
    | ok x =>
      simp only [Res.bind_ok]
      split_ifs <;> exact ih _ _ _

theorem construct_le {n q : Nat} {ρ : Type} (metric : ρ → ρ → ℚ) (adj : Adj n) (attr : Fin n → ρ)
    (spat : Fin n → Fin q → ℚ) (thr : Fin q → ℚ) (b : Nat) :
    ∀ {p : Nat} {kept : List (List (List (Fin n)) × List (Fin n))} {r : Rng} {x},
      construct metric adj attr spat thr b p kept r = .ok x → p ≤ x.1 := by
  induction b with
  | zero => intro p kept r x h; cases h; exact le_rfl
  | succ b ih =>
    intro p kept r x h
    simp only [construct] at h
    rw [Res.bind_eq_ok] at h
    obtain ⟨⟨pe, r'⟩, -, h⟩ := h
    dsimp only at h
    split_ifs at h with h1 h2
    · exact h1.le.trans (ih h)
    · exact ih h
    · exact ih h

/-- C87: for the same random draws, more iterations never end with fewer regions, whatever the local
searches do. -/
theorem c87_more_iterations {ς ς' : Type} {n q : Nat} {ρ : Type} (ls : LocalSearch ς n q)
    (ls' : LocalSearch ς' n q) (metric : ρ → ρ → ℚ) (obj obj' : Objective ρ) (adj : Adj n)
    (attr : Fin n → ρ) (spat : Fin n → Fin q → ℚ) (thr : Fin q → ℚ) (a b : Nat) (st : ς) (st' : ς')
    (r : Rng) {p p' : Nat} {out out' : Option (Labels n)} {s : ς} {s' : ς'} {r1 r2 : Rng}
    (h : maxpFit ls metric obj adj attr spat thr a st r = .ok (p, out, s, r1))
    (h' : maxpFit ls' metric obj' adj attr spat thr (a + b) st' r = .ok (p', out', s', r2)) :
    p ≤ p' := by
  unfold maxpFit at h h'
  rw [Res.bind_eq_ok] at h h'
  obtain ⟨⟨P, kept, r3⟩, h1, h⟩ := h
  obtain ⟨⟨P', kept', r3'⟩, h1', h'⟩ := h'
  dsimp only at h h'
  simp only [Res.bind_eq_ok, Res.ok.injEq, Prod.mk.injEq] at h h'
  obtain ⟨_, _, _, _, h2, -⟩ := h
  obtain ⟨_, _, _, _, h2', -⟩ := h'
  rw [construct_add, h1, Res.bind_ok] at h1'
  have := construct_le metric adj attr spat thr b h1'
  dsimp only at this
  omega

/-- Path of four areas: the first iteration ends with one region, the second with two. -/
example :
    (match maxpFit (azpSearch .rowMajor (fun _ => 0) (pairwise manhattan) 20 path4 (ramp 4))
        manhattan (pairwise manhattan) path4 (ramp 4) (fun _ (_ : Fin 1) => 1) (fun _ => 2) 1 (.azp 0)
        (fun i => if i < 3 then 1 else 0) with
      | .ok (p, _, _, _) => p
      | _ => 0) = 1 ∧
    (match maxpFit (azpSearch .rowMajor (fun _ => 0) (pairwise manhattan) 20 path4 (ramp 4))
        manhattan (pairwise manhattan) path4 (ramp 4) (fun _ (_ : Fin 1) => 1) (fun _ => 2) 2 (.azp 0)
        (fun i => if i < 3 then 1 else 0) with
      | .ok (p, _, _, _) => p
      | _ => 0) = 2 := by decide +kernel

end Region.Props
