import Verif.Lemmas.MaxPReact
import Verif.Props.AzpTabu
import Verif.Props.AzpSa
/-
Property theorems C40-C47 and C70: the max-p heuristic.
-/
namespace Region.Props

open Region Spec Relation

/-! ### C40 -/

/-- C40 (part): if `AllowMoveAZPMaxPRegions` (around any strategy) allows the move of an area without
negative attributes to a region in use, the threshold survives the move.  Missing: areas with negative
attributes, for which it is false (`c40_negative_violates`). -/
theorem c40_threshold_preserved_partial {n q k : Nat} {ρ : Type} (expf : ℚ → ℚ) (idx : Fin k → Fin n)
    (attr : Fin k → ρ) (obj : Objective ρ) {spat : Fin n → Fin q → ℚ} {thr : Fin q → ℚ} {v : ℚ}
    {inner st' : Strat n q} {a : Fin k} {r : Int} {labels : Labels k} {rng rng' : Rng}
    (hr : ∃ u, labels u = r) (hpos : ∀ j, 0 ≤ spat (idx a) j)
    (hm : MeetsThreshold labels (fun i => spat (idx i)) thr)
    (h : Strat.call expf idx attr obj (.maxp spat thr v inner) a r labels rng =
      .ok (true, st', rng')) :
    MeetsThreshold (moved labels a r) (fun i => spat (idx i)) thr :=
  not_blocked_meets
    (((show (Strat.maxp spat thr v inner).HasThr spat thr from ⟨rfl, rfl⟩).call h).2 rfl) hr hpos hm

/-- C40: a move is refused without asking the decorated strategy exactly if the area has an attribute
different from zero and its region would fall below the threshold. -/
theorem c40_blocks_iff {k q : Nat} (sp : Fin k → Fin q → ℚ) (thr : Fin q → ℚ) (a : Fin k)
    (labels : Labels k) :
    Strat.maxpBlocks sp thr a labels = true ↔
      (∃ j, sp a j ≠ 0) ∧
      ∃ j, (∑ u ∈ Finset.univ.filter (fun u => labels u = labels a), sp u j) - sp a j < thr j := by
  unfold Strat.maxpBlocks
  simp only [sum_whereEq labels (fun i => sp i _)]
  by_cases h : ∃ j, sp a j ≠ 0
  · rw [if_pos (by simpa using h)]
    simp [h]
  · rw [if_neg (by simpa using h)]
    simp [h]

example : (∃ u, (![0, 0, 1, 1] : Labels 4) u = 1) ∧
    MeetsThreshold (![0, 0, 1, 1] : Labels 4) (fun i (_ : Fin 1) => ![2, 1, 1, 1] i) (fun _ => 2) ∧
    (match Strat.call (fun _ => 0) id (column ![0, 5, 5, 5]) (pairwise manhattan)
        (.maxp (fun i (_ : Fin 1) => ![2, 1, 1, 1] i) (fun _ => 2) 0 (.azp 0)) 1 1 ![0, 0, 1, 1]
        (fun _ => 0) with
      | .ok (b, _, _) => b
      | _ => false) = true := by
  refine ⟨⟨2, by decide⟩, ?_, by decide +kernel⟩
  unfold MeetsThreshold
  decide +kernel

/-- The docstring's claim for negative attributes is false: areas 0 | 1, 2 with attribute values 1 |
-1, 4 and threshold 1: moving area 1 to the first region is allowed, and that region then sums up to
0.  The test of the recipient is never executed. -/
theorem c40_negative_violates :
    MeetsThreshold (![0, 1, 1] : Labels 3) (fun i (_ : Fin 1) => (![1, -1, 4] : Fin 3 → ℚ) i)
      (fun _ => 1) ∧
    (match Strat.call (fun _ => 0) id (column ![0, 0, 5]) (pairwise manhattan)
        (.maxp (fun i (_ : Fin 1) => (![1, -1, 4] : Fin 3 → ℚ) i) (fun _ => 1) 0 (.azp 0)) 1 0
        ![0, 1, 1] (fun _ => 0) with
      | .ok (b, _, _) => b
      | _ => false) = true ∧
    ¬ MeetsThreshold (moved (![0, 1, 1] : Labels 3) 1 0)
      (fun i (_ : Fin 1) => (![1, -1, 4] : Fin 3 → ℚ) i) (fun _ => 1) := by
  refine ⟨?_, by decide +kernel, ?_⟩
  · unfold MeetsThreshold; decide +kernel
  · unfold MeetsThreshold; decide +kernel

/-! ### C41 -/

section
variable {n q : Nat} {ρ : Type} (metric : ρ → ρ → ℚ) (attr : Fin n → ρ) (spat : Fin n → Fin q → ℚ)
  (thr : Fin q → ℚ)

/-- C41: `grow_regions` returns; the regions and the enclaves together contain every area exactly once,
every region is contiguous and reaches the threshold. -/
theorem c41_grow_regions {adj : Adj n} (hs : Symmetric adj) (hloop : ∀ v, adj v v = false) (r : Rng) :
    ∃ P E r', growRegions metric adj attr spat thr r = .ok ((P, E), r') ∧
      (P.flatten ++ E).Perm (List.finRange n) ∧
      ∀ reg ∈ P, Contiguous adj {v | v ∈ reg} ∧ ∀ j, thr j ≤ (reg.map fun v => spat v j).sum := by
  obtain ⟨⟨⟨P, E⟩, r'⟩, h1, A, h2⟩ := (growLoop_post metric adj attr spat thr hs hloop n [] []
    (List.finRange n) [] r ⟨by simp, by simp, (fun _ h => by cases h), (fun _ _ _ h => by cases h),
      (fun _ h => by cases h)⟩ (by simp)).total
  exact ⟨P, E, r', h1, by simpa using h2.perm, fun reg h => h2.good reg h⟩

/-- C41, the enclaves: they fall into pieces, each contiguous and below the threshold, that border only
areas of regions. -/
theorem c41_enclaves {adj : Adj n} (hs : Symmetric adj) (hloop : ∀ v, adj v v = false) (r : Rng)
    {P : List (List (Fin n))} {E : List (Fin n)} {r' : Rng}
    (h : growRegions metric adj attr spat thr r = .ok ((P, E), r')) :
    ∀ e ∈ E, ∃ C : List (Fin n), e ∈ C ∧ C.Nodup ∧ C ⊆ E ∧ Contiguous adj {v | v ∈ C} ∧
      (∃ j, (C.map fun v => spat v j).sum < thr j) ∧
      ∀ a ∈ C, ∀ v, adj a v = true → v ∈ P.flatten ∨ v ∈ C := by
  have := (growLoop_post metric adj attr spat thr hs hloop n [] []
    (List.finRange n) [] r ⟨by simp, by simp, (fun _ h => by cases h), (fun _ _ _ h => by cases h),
      (fun _ h => by cases h)⟩ (by simp)).ok h
  obtain ⟨A, hA⟩ := this
  intro e he
  obtain ⟨C, h1, h2, h3, h4, h5, h6⟩ := hA.enclave e he
  refine ⟨C, h1, h2, h3, h4, ?_, h6⟩
  push Not at h5
  exact h5

end

/-- The hypotheses of C41 on a path of five areas, where two regions of two areas and one enclave are
grown. -/
example : Symmetric path5 ∧ (∀ v, path5 v v = false) ∧
    (match growRegions manhattan path5 (ramp 5) (fun _ (_ : Fin 1) => 1) (fun _ => 2)
        (fun _ => 0) with
      | .ok ((P, E), _) => (P, E)
      | _ => ([], [])) = ([[0, 1], [2, 3]], [4]) :=
  ⟨path5_symm, by decide, by decide +kernel⟩

/-- Two areas with entries on the diagonal of the adjacency matrix. -/
def loop2 : Adj 2 := fun _ _ => true

/-- Without the hypothesis on the diagonal `grow_regions` raises: an area is its own neighbor, is taken
a second time and cannot be removed from the unassigned areas. -/
theorem c41_self_loop_raises :
    (match growRegions manhattan loop2 (column ![0, 5]) (fun _ (_ : Fin 1) => 1) (fun _ => 3)
        (fun _ => 0) with
      | .raise e => some e
      | _ => none) = some (.valueError "list.remove(x): x not in list") := by decide +kernel

/-! ### C42 -/

/-- C42: given contiguous regions and remaining areas (the enclaves), `assign_enclaves` returns exactly
if every area lies on an island with a region.  It then has put every enclave into a region, every
region has only grown and is contiguous, and there are as many regions as before. -/
theorem c42_assign_enclaves {n : Nat} {ρ : Type} (metric : ρ → ρ → ℚ) {adj : Adj n} (attr : Fin n → ρ)
    (hs : Symmetric adj) {P : List (List (Fin n))} {E : List (Fin n)}
    (hperm : (P.flatten ++ E).Perm (List.finRange n))
    (hc : ∀ reg ∈ P, Contiguous adj {v | v ∈ reg}) (r : Rng) :
    ((∃ P' r', assignEnclaves metric adj attr P E r = .ok (P', r')) ↔
      ∀ e, ∃ u ∈ P.flatten, SameIsland adj e u) ∧
    ∀ P' r', assignEnclaves metric adj attr P E r = .ok (P', r') →
      P'.flatten.Perm (List.finRange n) ∧ (∀ reg ∈ P', Contiguous adj {v | v ∈ reg}) ∧
      P'.length = P.length ∧ ∀ i (h : i < P.length) (h' : i < P'.length), P[i] ⊆ P'[i] := by
  have hpost := assignLoop_post metric adj attr hs (G := fun _ => True) (fun _ _ _ => trivial)
    (R := ¬ ∀ e, ∃ u ∈ P.flatten, SameIsland adj e u) E.length P E r
    ⟨hperm, hc, fun _ _ => trivial⟩ le_rfl (fun h => not_not.1 h)
  have hok : ∀ P' r', assignEnclaves metric adj attr P E r = .ok (P', r') →
      P'.flatten.Perm (List.finRange n) ∧ (∀ reg ∈ P', Contiguous adj {v | v ∈ reg}) ∧
      P'.length = P.length ∧ ∀ i (h : i < P.length) (h' : i < P'.length), P[i] ⊆ P'[i] := by
    intro P' r' h
    obtain ⟨h1, h2⟩ := hpost.ok h
    exact ⟨by simpa using h1.perm, h1.contiguous, h2.1, h2.2⟩
  refine ⟨⟨?_, ?_⟩, hok⟩
  · rintro ⟨P', r', h⟩ e
    obtain ⟨h1, h2, h3, h4⟩ := hok P' r' h
    obtain ⟨reg, hreg, he⟩ := List.mem_flatten.1 (h1.mem_iff.2 (List.mem_finRange e))
    obtain ⟨i, hi, rfl⟩ := List.getElem_of_mem hreg
    have hi' : i < P.length := by rw [← h3]; exact hi
    obtain ⟨u, hu⟩ := (hc _ (List.getElem_mem hi')).1
    have hu' : u ∈ P'[i] := h4 i hi' hi hu
    exact ⟨u, List.mem_flatten.2 ⟨_, List.getElem_mem hi', hu⟩,
      pathIn_sameIsland ((h2 _ hreg).2 e he u hu')⟩
  · intro h
    cases hx : assignEnclaves metric adj attr P E r with
    | ok x => exact ⟨x.1, x.2, rfl⟩
    | raise e =>
      unfold assignEnclaves at hx
      rw [hx] at hpost
      exact absurd h hpost
    | timeout =>
      unfold assignEnclaves at hx
      rw [hx] at hpost
      exact hpost.elim

example : (([[0, 1], [2, 3]] : List (List (Fin 5))).flatten ++ [4]).Perm (List.finRange 5) ∧
    Contiguous path5 {v | v ∈ ([0, 1] : List (Fin 5))} ∧
    (match assignEnclaves manhattan path5 (ramp 5) [[0, 1], [2, 3]] [4] (fun _ => 0) with
      | .ok (P, _) => P
      | _ => []) = [[0, 1], [2, 3, 4]] := by
  refine ⟨by decide, ?_, by decide +kernel⟩
  obtain ⟨P, E, r', h1, _, h3⟩ := c41_grow_regions manhattan (ramp 5) (fun _ (_ : Fin 1) => 1)
    (fun _ => 2) path5_symm (by decide) (fun _ => 0)
  have : (match growRegions manhattan path5 (ramp 5) (fun _ (_ : Fin 1) => 1) (fun _ => 2)
        (fun _ => 0) with
      | .ok ((P, E), _) => P
      | _ => []) = [[0, 1], [2, 3]] := by decide +kernel
  rw [h1] at this
  dsimp only at this
  exact (h3 [0, 1] (by rw [this]; simp)).1

/-- An island without a region: two islands, the second one below the threshold. -/
example : (match assignEnclaves manhattan islands4 (ramp 4) [[0, 1]] [2, 3] (fun _ => 0) with
      | .raise _ => true
      | _ => false) = true := by decide +kernel

/-! ### C43 -/

open Classical in
/-- C43: `MaxPRegionsHeu.fit` with AZP as local search, whatever strategy (and history) the AZP object
comes with, returns a clustering into contiguous regions that all reach the threshold; their number is
the largest number of regions in any of the `max_it` calls of `grow_regions`. -/
theorem c43_fit {n q : Nat} {ρ : Type} (o : MstOrder) (expf : ℚ → ℚ) {obj : Objective ρ}
    (he : obj.Exact) (ht : obj.Total) (metric : ρ → ρ → ℚ) {adj : Adj n} (hs : Symmetric adj)
    (hloop : ∀ v, adj v v = false) (attr : Fin n → ρ) (spat : Fin n → Fin q → ℚ) (thr : Fin q → ℚ)
    (hpos : ∀ v j, 0 ≤ spat v j)
    (htot : ∀ v j, thr j ≤ ∑ u ∈ Finset.univ.filter (fun u => SameIsland adj v u), spat u j)
    (maxIt : Nat) (hit : 0 < maxIt) (fuel : Nat) (hf : n + n ^ n < fuel) (st : Strat n q) (r : Rng) :
    ∃ p L st' r', maxpFit (azpSearch o expf obj fuel adj attr) metric obj adj attr spat thr maxIt st r =
        .ok (p, some L, st', r') ∧
      Feasible adj L p ∧ MeetsThreshold L spat thr ∧
      ∃ runs r'', growRuns metric adj attr spat thr maxIt r = .ok (runs, r'') ∧
        runs.length = maxIt ∧ (∀ pe ∈ runs, pe.1.length ≤ p) ∧ ∃ pe ∈ runs, pe.1.length = p := by
  have := maxpFit_post (azpSearch o expf obj fuel adj attr) obj attr (R := False) (T := False)
    (S := fun st => st.HasThr spat thr) (S0 := fun _ => True) metric hs hloop spat thr hpos
    (fun _ v C hnd hC j => by
      have := htot v j
      unfold colSum
      rw [← List.sum_toFinset (fun v => spat v j) hnd]
      have hset : C.toFinset = Finset.univ.filter (fun u => SameIsland adj v u) := by
        ext u; simp [hC]
      rwa [hset])
    (fun _ _ => ⟨rfl, rfl⟩) (fun _ _ => trivial)
    (O := fun p L => Feasible adj L p ∧ MeetsThreshold L spat thr)
    (fun p init st r hc h0 hp hm hst => by
      change (azpFit o expf obj fuel adj attr (p : Int) (some init) st r >>= _).Post _ _ _
      refine Res.Post.bind (maxp_azpFit o expf he ht hpos hs attr p init hc (by rw [hp]) h0 hm fuel hf
        st hst r) ?_
      rintro ⟨L, st', r'⟩ _ ⟨h1, h2, h3, h4⟩
      exact ⟨⟨L, rfl, ⟨h2, by exact_mod_cast h3⟩, h4⟩, h1⟩)
    maxIt st trivial r
  obtain ⟨⟨p, out, st', r'⟩, h1, ⟨runs, r'', h2, h3⟩, h4, h5, _⟩ := this.total
  dsimp only at h3 h4 h5
  have hrlen := ((growRuns_post metric adj attr spat thr hs hloop maxIt r).ok h2).1
  dsimp only at hrlen
  obtain ⟨L, rfl⟩ := Option.ne_none_iff_exists'.1 (h5 hit)
  refine ⟨p, L, st', r', h1, (h4 L rfl).1, (h4 L rfl).2, runs, r'', h2, hrlen, ?_, ?_⟩
  · intro pe hpe
    rw [h3]
    exact le_mostRegions hpe
  · rw [h3]
    apply exists_mostRegions
    rintro rfl
    simp at hrlen
    omega

/-- `max_it = 0`: nothing is constructed and `labels_` is not assigned. -/
theorem c43_no_iterations {ς : Type} {n q : Nat} {ρ : Type} (ls : LocalSearch ς n q)
    (metric : ρ → ρ → ℚ) (obj : Objective ρ) (adj : Adj n) (attr : Fin n → ρ)
    (spat : Fin n → Fin q → ℚ) (thr : Fin q → ℚ) (st : ς) (r : Rng) :
    maxpFit ls metric obj adj attr spat thr 0 st r = .ok (0, none, st, r) := rfl

/-- A run on the path of five areas. -/
example : (match maxpFit (azpSearch .rowMajor (fun _ => 0) (pairwise manhattan) 20 path5 (ramp 5))
      manhattan (pairwise manhattan) path5 (ramp 5) (fun _ (_ : Fin 1) => 1) (fun _ => 2) 2 (.azp 0)
      (fun i => i) with
    | .ok (p, some L, _, _) => (p, arrayList L)
    | _ => (0, [])) = (2, [0, 0, 1, 1, 1]) := by decide +kernel

open Classical in
/-- Its hypothesis on the totals. -/
example (v : Fin 5) (_ : Fin 1) :
    (2 : ℚ) ≤ ∑ u ∈ Finset.univ.filter (fun u => SameIsland path5 v u), (fun _ => (1 : ℚ)) u := by
  have : Finset.univ.filter (fun u => SameIsland path5 v u) = Finset.univ := by
    apply Finset.filter_true_of_mem
    intro u _
    have hc := ((c04_assert_feasible_ok (![0, 0, 0, 0, 0] : Labels 5) path5 none).1
      (by decide +kernel)).1 0
    have h0 : ∀ w : Fin 5, w ∈ regionOf (![0, 0, 0, 0, 0] : Labels 5)
        ((![0, 0, 0, 0, 0] : Labels 5) 0) := by unfold regionOf; decide
    exact pathIn_sameIsland (hc.2 v (h0 v) u (h0 u))
  rw [this, Finset.sum_const, Finset.card_univ, Fintype.card_fin]
  decide +kernel

/-! ### C70 -/

/-- C70: with the pairwise objective and the default strategy (however often decorated), the result of
`fit` is at least as good as every partition with the maximal number of regions that the construction
phase has produced. -/
theorem c70_best_of_constructed {n q : Nat} {ρ : Type} (o : MstOrder) (expf : ℚ → ℚ)
    {metric : ρ → ρ → ℚ} (hm : ∀ x y, metric x y = metric y x) (h0 : ∀ x, metric x x = 0)
    {adj : Adj n} (hs : Symmetric adj) (attr : Fin n → ρ) (spat : Fin n → Fin q → ℚ)
    (thr : Fin q → ℚ) (maxIt fuel : Nat) (st : Strat n q) (hst : st.Greedy) (r : Rng)
    {p : Nat} {out : Option (Labels n)} {st' : Strat n q} {r' : Rng}
    (h : maxpFit (azpSearch o expf (pairwise metric) fuel adj attr) metric (pairwise metric) adj attr
      spat thr maxIt st r = .ok (p, out, st', r')) :
    ∃ kept r1 feasible r2,
      construct metric adj attr spat thr maxIt 0 [] r = .ok (p, kept, r1) ∧
      assignAll metric adj attr kept r1 = .ok (feasible, r2) ∧
      ∀ P ∈ feasible, ∀ L0, labelsOfPartition P = .ok L0 →
        ∃ L, out = some L ∧ (pairwise metric).call L attr ≤ (pairwise metric).call L0 attr := by
  unfold maxpFit at h
  simp only [Res.bind_eq_ok] at h
  obtain ⟨⟨maxP, kept, r1⟩, hc, ⟨feasible, r2⟩, ha, ⟨best, st2, r3⟩, hb, he⟩ := h
  dsimp only at ha hb he
  cases he
  refine ⟨kept, r1, feasible, r2, hc, ha, ?_⟩
  intro P hP L0 hL0
  have := (searchOuter_best (ls := azpSearch o expf (pairwise metric) fuel adj attr)
    (obj := pairwise metric) (attr := attr) (maxP := p) (S := Strat.Greedy) (spat := spat) (thr := thr)
    (fun st h => h) (fun init st r hst => by
      change (azpFit o expf _ fuel adj attr (p : Int) (some init) st r >>= _).Post _ _ _
      refine Res.Post.bind (greedy_azpFit o expf hm h0 hs attr p init fuel st hst r) ?_
      rintro ⟨L, st', r'⟩ _ ⟨h1, h2⟩
      refine ⟨?_, h2⟩
      rintro L' hL'
      cases hL'
      exact h1) feasible feasible none st r2 hst (fun _ _ h => by cases h)).ok hb
  obtain ⟨L, w, e, hw⟩ := this.2.2 (List.ne_nil_of_mem hP) P hP L0 hL0
  dsimp only at e
  subst e
  refine ⟨L, rfl, ?_⟩
  rw [← this.1 L w rfl]
  exact hw

/-- A path of three areas. -/
def path3 : Adj 3 := fun i j => decide (i.val + 1 = j.val ∨ j.val + 1 = i.val)

/-- A run in which the local search improves on the constructed partition `0 | 1, 2`. -/
example : (Strat.azp 0 : Strat 3 1).Greedy ∧
    (match maxpFit (azpSearch .rowMajor (fun _ => 0) (pairwise manhattan) 20
        path3 (column ![4, 3, 0])) manhattan (pairwise manhattan) path3 (column ![4, 3, 0]) (fun i (_ : Fin 1) => ![2, 1, 3] i)
      (fun _ => 2) 1 (.azp 0) (fun _ => 0) with
    | .ok (p, some L, _, _) => (p, arrayList L, (pairwise manhattan).call L (column ![4, 3, 0]))
    | _ => (0, [], 0)) = (2, [0, 0, 1], 1) ∧
    (pairwise manhattan).call (![0, 1, 1] : Labels 3) (column ![4, 3, 0]) = 3 :=
  ⟨trivial, by decide +kernel, by decide +kernel⟩

/-! ### C44 -/

/-- C44 is false: with the decorator, AZP on one component makes exactly one pass over the regions,
whatever this pass has achieved. -/
theorem c44_one_pass {n q : Nat} {ρ : Type} (expf : ℚ → ℚ) (obj : Objective ρ) (fuel : Nat)
    (idx : List (Fin n)) (adj : Adj idx.length) (init : Labels idx.length)
    (h2 : 2 ≤ numRegions init) (attr : Fin idx.length → ρ) (spat : Fin n → Fin q → ℚ)
    (thr : Fin q → ℚ) (v : ℚ) (inner : Strat n q) (rng : Rng) :
    azpComp expf obj (fuel + 1) idx adj init attr (.maxp spat thr v inner) rng =
      (passRegions (Strat.ops expf (fun i => idx.get i) attr obj) adj (fuel + 1)
          (uniqueSorted (arrayList init)).length (uniqueSorted (arrayList init))
          ⟨init, initNbrs adj init (uniqueSorted (arrayList init)),
            Strat.start (obj.call init attr) (.maxp spat thr v inner), rng⟩ >>= fun s =>
        .ok (s.labels, s.strat, s.rng)) := by
  unfold azpComp azpComponent
  dsimp only
  have hlen := length_unique_labels init
  rw [if_neg (by omega), if_neg (by intro h; rw [h] at hlen; simp at hlen; omega)]
  generalize hpr : passRegions (Strat.ops expf (fun i => idx.get i) attr obj) adj (fuel + 1)
    (uniqueSorted (arrayList init)).length (uniqueSorted (arrayList init))
    ⟨init, initNbrs adj init (uniqueSorted (arrayList init)),
      Strat.start (obj.call init attr) (.maxp spat thr v inner), rng⟩ = res
  have hv := passRegions_strat (ops := Strat.ops (q := q) expf (fun i => idx.get i) attr obj)
    (adj := adj) (Q := fun st => st.isMaxp = true ∧ st.objVal = obj.call init attr)
    (fun st a r L rng h => Strat.call_maxp_objVal expf _ attr obj _ st a r L rng h) (fuel + 1)
    (uniqueSorted (arrayList init)).length (uniqueSorted (arrayList init))
    ⟨init, initNbrs adj init (uniqueSorted (arrayList init)),
      Strat.start (obj.call init attr) (.maxp spat thr v inner), rng⟩ ⟨rfl, rfl⟩
  rw [hpr] at hv
  unfold azpOuter
  rw [if_pos (by rfl)]
  dsimp only
  rw [hpr]
  cases res with
  | raise e => rfl
  | timeout => rfl
  | ok s =>
    rw [Res.bind_ok, Res.bind_ok]
    have hs : (Strat.ops (q := q) expf (fun i => idx.get i) attr obj).objVal s.strat =
        obj.call init attr := hv.2
    unfold azpOuter
    rw [hs, if_neg]
    · rfl
    · have : (Strat.ops (q := q) expf (fun i => idx.get i) attr obj).objVal
        (Strat.start (obj.call init attr) (.maxp spat thr v inner)) = obj.call init attr := rfl
      rw [this]
      simp [improving]

/-- C44 (part): if the only pass moves nothing, the result is a local optimum among the moves that
respect the threshold; in any case one region has been exhausted.  Missing: the repetition of the passes,
without which the first case need not occur (`c44_misses_improvement`). -/
theorem c44_local_optimum_partial {n q : Nat} {ρ : Type} (expf : ℚ → ℚ) {obj : Objective ρ}
    (he : obj.Exact) (ht : obj.Total) (idx : List (Fin n)) {adj : Adj idx.length}
    (hs : Symmetric adj) (init : Labels idx.length) (hc : AllContiguous adj init)
    (h2 : 2 ≤ numRegions init) (attr : Fin idx.length → ρ) (fuel : Nat) (spat : Fin n → Fin q → ℚ)
    (thr : Fin q → ℚ) (v w : ℚ) (rng : Rng) {out : Labels idx.length} {st' : Strat n q} {rng' : Rng}
    (h : azpComp expf obj fuel idx adj init attr (.maxp spat thr v (.azp w)) rng =
      .ok (out, st', rng')) :
    (∃ r, (∃ i, init i = r) ∧ ∀ a, Admissible adj out a r →
      Strat.maxpBlocks (fun i => spat (idx.get i)) thr a out = true ∨
      obj.call out attr < obj.call (moved out a r) attr) ∧
    ((out = init ∧ ∀ a r, Admissible adj out a r →
      Strat.maxpBlocks (fun i => spat (idx.get i)) thr a out = true ∨
      obj.call out attr < obj.call (moved out a r) attr) ∨
    TransGen (fun L L' => ∃ a r, Admissible adj L a r ∧ L' = moved L a r ∧
      Strat.maxpBlocks (fun i => spat (idx.get i)) thr a L = false ∧
      obj.call L' attr ≤ obj.call L attr) init out) := by
  cases fuel with
  | zero =>
    unfold azpComp azpComponent at h
    have hlen := length_unique_labels init
    dsimp only at h
    rw [if_neg (by omega), if_neg (by intro h; rw [h] at hlen; simp at hlen; omega)] at h
    unfold azpOuter at h
    rw [if_pos (by rfl)] at h
    cases h
  | succ fuel =>
    rw [c44_one_pass expf obj fuel idx adj init h2 attr spat thr v (.azp w) rng, Res.bind_eq_ok] at h
    obtain ⟨s, hp, hse⟩ := h
    cases hse
    have hcall : ∀ (L : Labels idx.length) (a : Fin idx.length) (r : Int) (v w : ℚ) (rng : Rng)
        (d : ℚ), obj.update a r L attr = some d →
        ∃ b w', Strat.call expf (fun i => idx.get i) attr obj (.maxp spat thr v (.azp w)) a r L rng =
          .ok (b, .maxp spat thr v (.azp w'), rng) ∧
          (b = true ↔ Strat.maxpBlocks (fun i => spat (idx.get i)) thr a L = false ∧
            obj.call (moved L a r) attr ≤ obj.call L attr) := by
      intro L a r v w rng d hd
      have hex := he a r L attr d hd
      unfold Strat.call
      split_ifs with hb
      · exact ⟨false, w, rfl, (fun h => by cases h), fun h => by rw [hb] at h; cases h.1⟩
      · unfold Strat.call
        rw [hd]
        dsimp only
        split_ifs with hle
        · exact ⟨true, w + d, rfl, fun _ => ⟨by simpa using hb, by rw [hex]; linarith⟩, fun _ => rfl⟩
        · exact ⟨false, w, rfl, (fun h => by cases h), fun h => absurd h.2 (by rw [hex]; linarith)⟩
    let P : Labels idx.length → Strat n q → Prop := fun _ st =>
      ∃ v w, st = .maxp spat thr v (.azp w)
    have hupd : ∀ L a r, Admissible adj L a r → ∃ d, obj.update a r L attr = some d := by
      rintro L a r ⟨_, ⟨u, hu, _⟩, hb, _⟩
      exact ht a r L attr ⟨u, hu⟩ hb
    have hok : StratOk (Strat.ops (q := q) expf (fun i => idx.get i) attr obj) adj P True True := by
      rintro L st a r rng _ hadm ⟨v, w, rfl⟩
      obtain ⟨d, hd⟩ := hupd L a r hadm
      obtain ⟨b, w', h1, _⟩ := hcall L a r v w rng d hd
      exact Res.Post.of_ok h1 ⟨v, w', rfl⟩
    have hans : ∀ L a r b, Admissible adj L a r →
        Answered (Strat.ops (q := q) expf (fun i => idx.get i) attr obj) P L a r b →
        (b = true ↔ Strat.maxpBlocks (fun i => spat (idx.get i)) thr a L = false ∧
            obj.call (moved L a r) attr ≤ obj.call L attr) := by
      rintro L a r b hadm ⟨_, rng, st', rng', ⟨v, w, rfl⟩, hb⟩
      obtain ⟨d, hd⟩ := hupd L a r hadm
      obtain ⟨b', w', h1, h2⟩ := hcall L a r v w rng d hd
      have : Res.ok (b, st', rng') = Res.ok (b', .maxp spat thr v (.azp w'), rng) :=
        hb.symm.trans h1
      cases this
      exact h2
    have hmem : ∀ r, r ∈ uniqueSorted (arrayList init) ↔ ∃ i, init i = r := fun r => by
      rw [mem_uniqueSorted, mem_arrayList]
    have := (passRegions_post hs hok (fuel + 1) (fun _ => trivial) _ _ _
      ⟨initNbrs_ok adj init, hc, _, _, rfl⟩ (fun r hr => (hmem r).1 hr) le_rfl).ok hp
    obtain ⟨_, hpass⟩ := this
    have hreach := hpass.reach
    obtain ⟨_, g2, g3⟩ := hpass
    have hne : uniqueSorted (arrayList init) ≠ [] := by
      intro h
      have hlen := length_unique_labels init
      rw [h] at hlen; simp at hlen; omega
    have href : ∀ r, AllRefused (Strat.ops (q := q) expf (fun i => idx.get i) attr obj) adj P s.labels r →
        ∀ a, Admissible adj s.labels a r →
          Strat.maxpBlocks (fun i => spat (idx.get i)) thr a s.labels = true ∨
          obj.call s.labels attr < obj.call (moved s.labels a r) attr := by
      intro r hr a ha
      have := hans _ _ _ _ ha (hr a ha)
      by_contra hcon
      push Not at hcon
      have h := this.2 ⟨by simpa using hcon.1, hcon.2⟩
      cases h
    refine ⟨?_, ?_⟩
    · obtain ⟨r, hr, hall⟩ := g2 hne
      exact ⟨r, (hmem r).1 hr, href r hall⟩
    · rcases g3 with ⟨h1, hall⟩ | hmoves
      · refine .inl ⟨h1, ?_⟩
        intro a r hadm
        obtain ⟨u, hu, _⟩ := hadm.2.1
        have hr : r ∈ uniqueSorted (arrayList init) :=
          (hmem r).2 ((reach_image hreach r).1 ⟨u, hu⟩)
        have hall := hall r hr
        rw [← h1] at hall
        exact href r hall a hadm
      · right
        apply tg_mono _ hmoves
        rintro L L' ⟨a, r, hadm, hb, rfl⟩
        obtain ⟨k1, k2⟩ := (hans _ _ _ _ hadm hb).1 rfl
        exact ⟨a, r, hadm, rfl, k1, k2⟩

/-- A case in which this costs something: path of four areas with attributes 3, 0, 2, 1 and initial
regions 0, 1 | 2 | 3, threshold and weights that forbid nothing.  AZP ends at 0 | 1 | 2, 3 with
objective 1, the decorated AZP with the same random numbers at 0 | 1, 2 | 3 with objective 2, which
another pass would improve. -/
theorem c44_misses_improvement :
    (match azpFit (q := 1) .rowMajor (fun _ => 0) (pairwise manhattan) 20 path4
        (column ![3, 0, 2, 1]) 3 (some ![0, 0, 1, 2]) (.azp 0) (fun i => i) with
      | .ok (L, _, _) => (arrayList L, (pairwise manhattan).call L (column ![3, 0, 2, 1]))
      | _ => ([], 0)) = ([0, 1, 2, 2], 1) ∧
    (match azpFit .rowMajor (fun _ => 0) (pairwise manhattan) 20 path4
        (column ![3, 0, 2, 1]) 3 (some ![0, 0, 1, 2])
        (Strat.maxp (fun _ _ => 1) (fun _ : Fin 1 => 1) 0 (.azp 0)) (fun i => i) with
      | .ok (L, _, _) => (arrayList L, (pairwise manhattan).call L (column ![3, 0, 2, 1]))
      | _ => ([], 0)) = ([0, 1, 1, 2], 2) := by decide +kernel

example : 2 ≤ numRegions (![0, 0, 1, 2] : Labels 4) := by decide +kernel

/-! ### C45 -/

/-- C45 is false for simulated annealing: on a path of four areas with weights 1 and threshold 2 the
construction gives 0, 1 | 2, 3; the annealing (temperature 1/1000, at which every uphill move has
probability `exp(-5000) = 0` in floating-point numbers) moves area 1 away, and the result is
0 | 1, 2, 3, with a region below the threshold. -/
theorem c45_sa_violates :
    (match maxpFit (saSearch .rowMajor (fun _ => 0) (pairwise manhattan) 20 5 30
          ⟨1/1000, some 2, .int 10, 3, 5⟩ path4 (column ![0, 5, 5, 5]))
        manhattan (pairwise manhattan) path4 (column ![0, 5, 5, 5]) (fun _ (_ : Fin 1) => 1)
        (fun _ => 2) 1 .fresh (fun _ => 0) with
      | .ok (p, some L, _, _) => (p, arrayList L)
      | _ => (0, [])) = (2, [0, 1, 1, 1]) ∧
    ¬ MeetsThreshold (![0, 1, 1, 1] : Labels 4) (fun _ (_ : Fin 1) => 1) (fun _ => 2) := by
  refine ⟨by decide +kernel, ?_⟩
  unfold MeetsThreshold
  decide +kernel

/-- C45 (part): with basic tabu search every result has contiguous regions that reach the threshold,
and as many of them as the construction found if some threshold is positive.  Missing: simulated
annealing, for which it is false. -/
theorem c45_basic_tabu_partial {n q : Nat} {ρ : Type} (o : MstOrder) (expf : ℚ → ℚ)
    (metric : ρ → ρ → ℚ) {adj : Adj n} (hs : Symmetric adj)
    (attr : Fin n → ρ) (spat : Fin n → Fin q → ℚ) (thr : Fin q → ℚ) (hpos : ∀ v j, 0 ≤ spat v j)
    (maxIt fuel : Nat) (len : Option Nat) (reps : Int) (st : Strat n q) (r : Rng) {p : Nat}
    {L : Labels n} {st' : Strat n q} {r' : Rng}
    (h : maxpFit (basicTabuSearch o expf (pairwise metric) fuel len reps adj attr) metric
      (pairwise metric) adj attr spat thr maxIt st r = .ok (p, some L, st', r')) :
    AllContiguous adj L ∧ MeetsThreshold L spat thr ∧ numRegions L ≤ p ∧
      ((∃ j, 0 < thr j) → Feasible adj L p) := by
  have := maxpFit_post_loops (basicTabuSearch o expf (pairwise metric) fuel len reps adj attr)
    (pairwise metric) attr (R := True) (T := True)
    (S := fun st => st.HasThr spat thr) (S0 := fun _ => True) metric hs
    (fun h => absurd trivial h) spat thr hpos (fun h => absurd trivial h) (fun _ _ => ⟨rfl, rfl⟩) (fun _ _ => trivial)
    (O := fun p L => AllContiguous adj L ∧ MeetsThreshold L spat thr ∧ numRegions L ≤ p ∧
      ((∃ j, 0 < thr j) → Feasible adj L p))
    maxIt st trivial r
    (fun p init st r _ hc h0 hp hm hst => by
      change (basicTabuFit o expf _ fuel len reps adj attr (p : Int) (some init) st r >>=
        _).Post _ _ _
      refine Res.Post.bind (maxp_basicTabuFit o expf metric hpos attr p init h0 hm fuel len reps
        st hst r) ?_
      rintro ⟨L, st', r'⟩ _ ⟨h1, h2, h3, h4, h5⟩
      have hsub : Finset.univ.image L ⊆ Finset.univ.image init := by
        intro x hx
        obtain ⟨v, _, rfl⟩ := Finset.mem_image.1 hx
        obtain ⟨u, hu⟩ := h4 v
        exact Finset.mem_image.2 ⟨u, Finset.mem_univ _, hu⟩
      refine ⟨⟨L, rfl, h2, h3, ?_, fun hthr => ⟨h2, ?_⟩⟩, h1⟩
      · rw [← hp]
        unfold numRegions
        exact Finset.card_le_card hsub
      · rw [← hp]
        unfold numRegions
        rw [Finset.Subset.antisymm hsub]
        intro x hx
        obtain ⟨v, _, rfl⟩ := Finset.mem_image.1 hx
        obtain ⟨u, hu⟩ := h5 hthr v
        exact Finset.mem_image.2 ⟨u, Finset.mem_univ _, hu⟩)
  exact (this.ok h).2.1 L rfl

example : (match maxpFit (basicTabuSearch .rowMajor (fun _ => 0) (pairwise manhattan) 40 (some 1) 2
      path4 (column ![0, 5, 5, 5])) manhattan (pairwise manhattan) path4 (column ![0, 5, 5, 5])
      (fun _ (_ : Fin 1) => 1) (fun _ => 2) 1 (.azp 0) (fun _ => 0) with
    | .ok (p, some L, _, _) => (p, arrayList L)
    | _ => (0, [])) = (2, [0, 0, 1, 1]) := by decide +kernel

/-- C45 (part): on a connected map, with a reactive tabu object that has not been used before, every
result has contiguous regions that reach the threshold, and as many of them as the construction found
if some threshold is positive. -/
theorem c45_reactive_tabu_partial {n q : Nat} {ρ : Type} (o : MstOrder) (expf : ℚ → ℚ)
    (metric : ρ → ρ → ℚ) {adj : Adj n} (hs : Symmetric adj)
    (hcon : Connected adj) (attr : Fin n → ρ) (spat : Fin n → Fin q → ℚ) (thr : Fin q → ℚ)
    (hpos : ∀ v j, 0 ≤ spat v j) (maxIt searchIt : Nat) (k1 k2 : Int) (st : Strat n q) (r : Rng)
    {p : Nat} {L : Labels n} {self' : ReactSelf (Strat n q)} {r' : Rng}
    (h : maxpFit (reactiveTabuSearch o expf (pairwise metric) searchIt k1 k2 adj attr) metric
      (pairwise metric) adj attr spat thr maxIt (.fresh st) r = .ok (p, some L, self', r')) :
    AllContiguous adj L ∧ MeetsThreshold L spat thr ∧ ((∃ j, 0 < thr j) → Feasible adj L p) := by
  have key : ∀ p0, (∃ runs r', growRuns metric adj attr spat thr maxIt r = .ok (runs, r') ∧
      p0 = mostRegions runs) → AllContiguous adj L ∧ MeetsThreshold L spat thr ∧
        ((∃ j, 0 < thr j) → Feasible adj L p) := by
    intro p0 hp0
    have := maxpFit_post_loops (reactiveTabuSearch o expf (pairwise metric) searchIt k1 k2 adj attr)
      (pairwise metric) attr (R := True) (T := True)
      (S := fun self => self.strat.HasThr spat thr ∧
        ∀ l ∈ self.visited, GoodList thr p0 ⟨n, adj, spat⟩ l)
      (S0 := fun self => ∀ l ∈ self.visited, GoodList thr p0 ⟨n, adj, spat⟩ l) metric hs
      (fun h => absurd trivial h) spat thr hpos (fun h => absurd trivial h) (fun _ h => ⟨⟨rfl, rfl⟩, h⟩) (fun _ h => h.2)
      (O := fun p L => AllContiguous adj L ∧ MeetsThreshold L spat thr ∧
        ((∃ j, 0 < thr j) → Feasible adj L p)) maxIt (.fresh st) (by intro l hl; cases hl) r
      (fun p init self r1 hp1 hc h0 hp hm hst => by
        have hpp : p = p0 := by
          obtain ⟨runs, r2, e1, rfl⟩ := hp0
          obtain ⟨runs', r3, e2, rfl⟩ := hp1
          rw [e1] at e2
          cases e2
          rfl
        subst hpp
        change (reactiveTabuFit o expf _ searchIt k1 k2 adj attr (p : Int) (some init) self r1 >>=
          _).Post _ _ _
        refine Res.Post.bind (maxp_reactiveTabuFit o expf metric hpos hcon attr p init h0 hm
          searchIt k1 k2 self hst.1 hst.2 r1) ?_
        rintro ⟨L, self', r'⟩ _ ⟨h1, h2, h3⟩
        exact ⟨⟨L, rfl, h2, h3.1, fun hthr => ⟨h2, h3.2 hthr⟩⟩, h1⟩)
    exact (this.ok h).2.1 L rfl
  have hcon := construct_spec metric adj attr spat thr maxIt [] r
  change construct metric adj attr spat thr maxIt 0 [] r = _ at hcon
  cases hr : growRuns metric adj attr spat thr maxIt r with
  | ok x => exact key _ ⟨x.1, x.2, hr, rfl⟩
  | raise e =>
    unfold maxpFit at h
    rw [hcon, hr] at h
    cases h
  | timeout =>
    unfold maxpFit at h
    rw [hcon, hr] at h
    cases h

example : (match maxpFit (reactiveTabuSearch .rowMajor (fun _ => 0) (pairwise manhattan) 40 1 1
      path4 (column ![0, 5, 5, 5])) manhattan (pairwise manhattan) path4 (column ![0, 5, 5, 5])
      (fun _ (_ : Fin 1) => 1) (fun _ => 2) 1 (.fresh (.azp 0)) (fun _ => 0) with
    | .ok (p, some L, _, _) => (p, arrayList L)
    | _ => (0, [])) = (2, [0, 0, 1, 1]) := by decide +kernel

/-- Two islands of four areas each. -/
def islands44 : Adj 8 := fun i j =>
  decide ((i.val + 1 = j.val ∨ j.val + 1 = i.val) ∧ i.val / 4 = j.val / 4)

/-- C45 fails for reactive tabu search on islands: the labels of the first island are used for the
second one, so that two regions scattered over both islands are returned instead of four. -/
theorem c45_reactive_islands :
    (match maxpFit (reactiveTabuSearch .rowMajor (fun _ => 0) (pairwise manhattan) 40 1 1
          islands44 (column ![0, 0, 1, 1, 2, 2, 3, 3])) manhattan (pairwise manhattan) islands44
        (column ![0, 0, 1, 1, 2, 2, 3, 3]) (fun _ (_ : Fin 1) => 1) (fun _ => 2) 1
        (.fresh (.azp 0)) (fun _ => 0) with
      | .ok (p, some L, _, _) => (p, arrayList L)
      | _ => (0, [])) = (4, [0, 0, 1, 1, 0, 0, 1, 1]) ∧
    ¬ AllContiguous islands44 (![0, 0, 1, 1, 0, 0, 1, 1] : Labels 8) := by
  refine ⟨by decide +kernel, ?_⟩
  intro h
  have := (c04_assert_feasible_ok (![0, 0, 1, 1, 0, 0, 1, 1] : Labels 8) islands44 none).2
    ⟨h, by simp⟩
  revert this
  decide +kernel

/-! ### C46 -/

/-- C46 is false: the same fit (path of three areas, attributes 4, 3, 0, weights 2, 1, 3, threshold 2)
with the same random numbers gives 0, 1 | 2 (objective 1) with a fresh local search object and
0 | 1, 2 (objective 3) with an object that was used before in a fit with threshold 6. -/
theorem c46_history_matters :
    let fit := fun (thr : ℚ) (st : Strat 3 1) =>
      maxpFit (azpSearch .rowMajor (fun _ => 0) (pairwise manhattan) 20 path3 (column ![4, 3, 0]))
        manhattan (pairwise manhattan) path3 (column ![4, 3, 0]) (fun i (_ : Fin 1) => ![2, 1, 3] i)
        (fun _ => thr) 1 st (fun _ => 0)
    (match fit 2 (.azp 0) with
      | .ok (_, some L, _, _) => arrayList L
      | _ => []) = [0, 0, 1] ∧
    (match fit 6 (.azp 0) with
      | .ok (_, some _, st, _) => (match fit 2 st with
        | .ok (_, some L, _, _) => arrayList L
        | _ => [])
      | _ => []) = [0, 1, 1] := by
  decide +kernel

/-- C46 (part): what a fit guarantees (C43) does not depend on the history: the hypotheses do not
mention the strategy. Missing: equal results. -/
theorem c46_guarantees_partial {n q : Nat} {ρ : Type} (o : MstOrder) (expf : ℚ → ℚ)
    {obj : Objective ρ} (he : obj.Exact) (ht : obj.Total) (metric : ρ → ρ → ℚ) {adj : Adj n}
    (hs : Symmetric adj) (attr : Fin n → ρ)
    (spat : Fin n → Fin q → ℚ) (thr : Fin q → ℚ) (hpos : ∀ v j, 0 ≤ spat v j)
    (maxIt fuel : Nat) (hf : n + n ^ n < fuel) (st1 st2 : Strat n q) (r : Rng) {p1 p2 : Nat}
    {L1 L2 : Labels n} {st1' st2' : Strat n q} {r1 r2 : Rng}
    (h1 : maxpFit (azpSearch o expf obj fuel adj attr) metric obj adj attr spat thr maxIt st1 r =
      .ok (p1, some L1, st1', r1))
    (h2 : maxpFit (azpSearch o expf obj fuel adj attr) metric obj adj attr spat thr maxIt st2 r =
      .ok (p2, some L2, st2', r2)) :
    p1 = p2 ∧ Feasible adj L1 p1 ∧ Feasible adj L2 p1 ∧ MeetsThreshold L1 spat thr ∧
      MeetsThreshold L2 spat thr := by
  have key : ∀ st : Strat n q, (maxpFit (azpSearch o expf obj fuel adj attr) metric obj adj attr spat
      thr maxIt st r).Post True False fun p =>
      (∃ runs r', growRuns metric adj attr spat thr maxIt r = .ok (runs, r') ∧
        p.1 = mostRegions runs) ∧
      (∀ L, p.2.1 = some L → Feasible adj L p.1 ∧ MeetsThreshold L spat thr) ∧
      (0 < maxIt → p.2.1 ≠ none) ∧ True := by
    intro st
    exact maxpFit_post_loops (azpSearch o expf obj fuel adj attr) obj attr (R := True) (T := False)
      (S := fun st => st.HasThr spat thr) (S0 := fun _ => True) metric hs
      (fun h => absurd trivial h) spat thr hpos (fun h => absurd trivial h)
      (fun _ _ => ⟨rfl, rfl⟩) (fun _ _ => trivial)
      (O := fun p L => Feasible adj L p ∧ MeetsThreshold L spat thr)
      maxIt st trivial r
      (fun p init st r _ hc h0 hp hm hst => by
        change (azpFit o expf obj fuel adj attr (p : Int) (some init) st r >>= _).Post _ _ _
        refine Res.Post.bind ((maxp_azpFit o expf he ht hpos hs attr p init hc (by rw [hp]) h0 hm
          fuel hf st hst r).mono False.elim id fun _ h => h) ?_
        rintro ⟨L, st', r'⟩ _ ⟨h1, h2, h3, h4⟩
        exact ⟨⟨L, rfl, ⟨h2, by exact_mod_cast h3⟩, h4⟩, h1⟩)
  obtain ⟨⟨runs1, q1, e1, g1⟩, k1, _⟩ := (key st1).ok h1
  obtain ⟨⟨runs2, q2, e2, g2⟩, k2, _⟩ := (key st2).ok h2
  rw [e1] at e2
  cases e2
  dsimp only at g1 g2 k1 k2
  have hp : p1 = p2 := g1.trans g2.symm
  subst hp
  exact ⟨rfl, (k1 L1 rfl).1, (k2 L2 rfl).1, (k1 L1 rfl).2, (k2 L2 rfl).2⟩

/-! ### C47 -/

/-- C47: `find_best_area` raises exactly if there is no candidate, and otherwise returns a candidate
whose total dissimilarity to the region is the smallest. -/
theorem c47_find_best_area {n : Nat} {ρ : Type} (metric : ρ → ρ → ℚ) (attr : Fin n → ρ)
    (region cands : List (Fin n)) (r : Rng) :
    (cands = [] → findBestArea metric attr region cands r =
      .raise (.valueError "empty range for randrange()")) ∧
    (cands ≠ [] → ∃ a ∈ cands, findBestArea metric attr region cands r = .ok (a, r.next) ∧
      ∀ c ∈ cands, (region.map fun b => metric (attr a) (attr b)).sum ≤
        (region.map fun b => metric (attr c) (attr b)).sum) := by
  refine ⟨?_, fun h => findBestArea_spec metric attr h r⟩
  rintro rfl
  rfl

/-- C47: `find_best_region_idx` raises exactly if no region is given, and otherwise returns one of the
given indices with the smallest total dissimilarity. -/
theorem c47_find_best_region_idx {n : Nat} {ρ : Type} (metric : ρ → ρ → ℚ) (attr : Fin n → ρ)
    (area : Fin n) (P : List (List (Fin n))) (idxs : List Nat) (r : Rng) :
    (idxs = [] → findBestRegionIdx metric attr area P idxs r =
      .raise (.valueError "min() arg is an empty sequence")) ∧
    (idxs ≠ [] → ∃ i ∈ idxs, findBestRegionIdx metric attr area P idxs r = .ok (i, r.next) ∧
      ∀ j ∈ idxs, ((P.getD i []).map fun b => metric (attr area) (attr b)).sum ≤
        ((P.getD j []).map fun b => metric (attr area) (attr b)).sum) := by
  refine ⟨?_, fun h => findBestRegionIdx_spec metric attr h r⟩
  rintro rfl
  exact findBestRegionIdx_nil metric attr area P r

/-- Every candidate with the smallest dissimilarity can be the answer. -/
theorem c47_every_minimiser {n : Nat} {ρ : Type} (metric : ρ → ρ → ℚ) (attr : Fin n → ρ)
    (region cands : List (Fin n)) (a : Fin n) (ha : a ∈ cands)
    (hmin : ∀ c ∈ cands, (region.map fun b => metric (attr a) (attr b)).sum ≤
        (region.map fun b => metric (attr c) (attr b)).sum) :
    ∃ r, findBestArea metric attr region cands r = .ok (a, r.next) := by
  obtain ⟨m, hm⟩ := exists_min? (l := cands.map fun c => dissimTo metric attr c region)
    (by simpa using List.ne_nil_of_mem ha)
  obtain ⟨h1, h2⟩ := min?_le hm
  obtain ⟨c, hc, hcv⟩ := List.mem_map.1 h1
  have hma : m = dissimTo metric attr a region := by
    apply le_antisymm (h2 _ (List.mem_map.2 ⟨a, ha, rfl⟩))
    rw [← hcv]
    exact hmin c hc
  have hmem : a ∈ cands.filter fun area => decide
      ((cands.map fun c => dissimTo metric attr c region).min? =
        some (dissimTo metric attr area region)) := by
    rw [List.mem_filter]
    exact ⟨ha, by simp [hm, hma]⟩
  obtain ⟨i, hi, he⟩ := List.getElem_of_mem hmem
  refine ⟨fun _ => i, ?_⟩
  unfold findBestArea randomElementFrom randrange
  rw [if_neg (by omega), Res.bind_ok]
  dsimp only
  rw [Nat.mod_eq_of_lt hi, List.getElem?_eq_getElem hi, he]

example : (match findBestArea manhattan (ramp 5) [1] [0, 3, 2] (fun _ => 1) with
      | .ok (a, _) => some a
      | _ => none) = some 2 := by decide +kernel

end Region.Props
