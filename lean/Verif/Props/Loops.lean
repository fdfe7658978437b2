import Verif.Lemmas.Loops
import Verif.Props.ExactResults
import Verif.Props.MaxPHeu
import Verif.Props.Skater
/-
Property theorems C139: areas listed as their own neighbors.
-/
namespace Region.Props

open Region Spec Finset

section
variable {n q : Nat} {ρ : Type} {adj adj' : Adj n}

/-- The two matrices agree about different areas; nothing is said about the diagonal. -/
def AgreeOff (adj adj' : Adj n) : Prop := ∀ a b, a ≠ b → adj a b = adj' a b

theorem symmetric_off (h : AgreeOff adj adj') (hs : Spec.Symmetric adj) : Spec.Symmetric adj' := by
  intro a b
  by_cases hab : a = b
  · subst hab; rfl
  · rw [← h a b hab, ← h b a (Ne.symm hab)]; exact hs a b

/-- The spanning tree of a component is built from its links between different areas in the same order
(of links of equal weight) for both matrices. -/
def SameTreeOrder (o o' : MstOrder) (adj adj' : Adj n) : Prop :=
  ∀ idx : List (Fin n), idx.Nodup →
    (o.order (subAdj adj idx)).filter (fun e => decide (e.1 ≠ e.2)) =
      (o'.order (subAdj adj' idx)).filter fun e => decide (e.1 ≠ e.2)

/-- Row by row, that is the case. -/
example (h : AgreeOff adj adj') : SameTreeOrder .rowMajor .rowMajor adj adj' := sameLinks_rowMajor h

theorem azpFit_off (hs : Spec.Symmetric adj) (h : AgreeOff adj adj') {o o' : MstOrder}
    (ho : SameTreeOrder o o' adj adj') (expf : ℚ → ℚ) (obj : Objective ρ) (attr : Fin n → ρ) (p : Int)
    (fuel : Nat) (initial : Option (Labels n)) (st : Strat n q) (rng : Rng) :
    azpFit o expf obj fuel adj attr p initial st rng =
      azpFit o' expf obj fuel adj' attr p initial st rng :=
  fitWith_off_all h ho attr _ (fun idx _ _ _ _ hnd hc =>
    azpComponent_off (subAdj_symm hs idx) (subAdj_symm (symmetric_off h hs) idx) (OffDiag.sub h hnd) _ _
      hc _ _) p initial st rng

/-- C139 (not for the max-p heuristic): whether areas are listed as their own neighbors makes no
difference to any of the four regionalization classes, from given labels or from scratch, on a map with
any number of islands: the same labels, exceptions, state of the object and random draws. -/
theorem c139_search_partial (hs : Spec.Symmetric adj) (h : AgreeOff adj adj') {o o' : MstOrder}
    (ho : SameTreeOrder o o' adj adj') (expf : ℚ → ℚ) (obj : Objective ρ) (attr : Fin n → ρ) (p : Int)
    (initial : Option (Labels n)) (rng : Rng) :
    (∀ (fuel : Nat) (st : Strat n q), azpFit o expf obj fuel adj attr p initial st rng =
      azpFit o' expf obj fuel adj' attr p initial st rng) ∧
    (∀ (fuel : Nat) (len : Option Nat) (reps : Int) (st : Strat n q),
      basicTabuFit o expf obj fuel len reps adj attr p initial st rng =
        basicTabuFit o' expf obj fuel len reps adj' attr p initial st rng) ∧
    (∀ (maxIt : Nat) (k1 k2 : Int) (self : ReactSelf (Strat n q)),
      reactiveTabuFit o expf obj maxIt k1 k2 adj attr p initial self rng =
        reactiveTabuFit o' expf obj maxIt k1 k2 adj' attr p initial self rng) ∧
    ∀ (f1 f2 f3 : Nat) (P : SaParams) (self : SaObj) (cooling : ℚ),
      saFit o expf obj f1 f2 f3 P self adj attr p initial cooling rng =
        saFit o' expf obj f1 f2 f3 P self adj' attr p initial cooling rng := by
  refine ⟨fun fuel st => azpFit_off hs h ho expf obj attr p fuel initial st rng, ?_, ?_, ?_⟩
  · intro fuel len reps st
    exact fitWith_off_all h ho attr _ (fun idx _ _ _ _ hnd _ =>
      basicComponent_off (OffDiag.sub h hnd) _ _ _ _ _ _ _ _ _) p initial st rng
  · intro maxIt k1 k2 self
    refine fitWith_off_all h ho attr _ (fun idx init at' self rng hnd _ => ?_) p initial self rng
    simp only [reactComponentList_off (OffDiag.sub h hnd)]
  · intro f1 f2 f3 P self cooling
    unfold saFit
    simp only [azpFit_off hs h ho]

/-- C139 for the two tabu searches also with links in one direction only. -/
theorem c139_tabu (h : AgreeOff adj adj') {o o' : MstOrder} (ho : SameTreeOrder o o' adj adj')
    (expf : ℚ → ℚ) (obj : Objective ρ) (attr : Fin n → ρ) (p : Int) (initial : Option (Labels n))
    (rng : Rng) :
    (∀ (fuel : Nat) (len : Option Nat) (reps : Int) (st : Strat n q),
      basicTabuFit o expf obj fuel len reps adj attr p initial st rng =
        basicTabuFit o' expf obj fuel len reps adj' attr p initial st rng) ∧
    ∀ (maxIt : Nat) (k1 k2 : Int) (self : ReactSelf (Strat n q)),
      reactiveTabuFit o expf obj maxIt k1 k2 adj attr p initial self rng =
        reactiveTabuFit o' expf obj maxIt k1 k2 adj' attr p initial self rng := by
  refine ⟨fun fuel len reps st => fitWith_off_all h ho attr _ (fun idx _ _ _ _ hnd _ =>
      basicComponent_off (OffDiag.sub h hnd) _ _ _ _ _ _ _ _ _) p initial st rng, ?_⟩
  intro maxIt k1 k2 self
  refine fitWith_off_all h ho attr _ (fun idx init at' self rng hnd _ => ?_) p initial self rng
  simp only [reactComponentList_off (OffDiag.sub h hnd)]

/-- C139: given labels are accepted or refused alike (with the same message), and the map falls into the
same islands. -/
theorem c139_checks (h : AgreeOff adj adj') (labels : Labels n) (p : Option Int) :
    assertFeasible labels adj p = assertFeasible labels adj' p ∧
      separateComponents adj labels = separateComponents adj' labels ∧
      ∀ a b, SameIsland adj a b ↔ SameIsland adj' a b :=
  ⟨OffDiag.assertFeasible h _ _, OffDiag.separateComponents h _, fun _ _ => ⟨OffDiag.island h, OffDiag.island (OffDiag.symm h)⟩⟩

section
variable {m : Nat} {metric : Metric} {attr : Fin n → Row m} {p : Int}

/-- C139 for the exact methods that solve the p-regions problem (with at least two areas more than regions
for `order` and `tree`, and room for the regions for `flow`): with solvers that work the same clusterings
can be returned. -/
theorem c139_exact_partial (hs : Spec.Symmetric adj) (h : AgreeOff adj adj') (hp : 0 < p)
    (h2 : p + 2 ≤ n) (hd : ∀ i j, i < j → 0 ≤ columnD metric attr i j) {L₀ : Labels n}
    (h₀ : Feasible adj L₀ p.toNat)
    (hz : ∀ c, ((univ.filter fun i => L₀ i = c).card : Int) ≤ n - p) (r : Rng) (L : Labels n) :
    ((∃ s : Solvers n, Correct s.order ∧ exactFit adj attr p .order s metric r = .ok (arrayList L)) ↔
      ∃ s : Solvers n, Correct s.order ∧ exactFit adj' attr p .order s metric r = .ok (arrayList L)) ∧
    ((∃ (s : Solvers n) (r : Rng), Correct s.tree ∧
        exactFit adj attr p .tree s metric r = .ok (arrayList L)) ↔
      ∃ (s : Solvers n) (r : Rng), Correct s.tree ∧
        exactFit adj' attr p .tree s metric r = .ok (arrayList L)) ∧
    ((∃ s : Solvers n, Correct s.flow ∧ exactFit adj attr p .flow s metric r = .ok (arrayList L)) ↔
      ∃ s : Solvers n, Correct s.flow ∧ exactFit adj' attr p .flow s metric r = .ok (arrayList L)) := by
  have hs' := symmetric_off h hs
  have hf : ∀ L : Labels n, Feasible adj L p.toNat ↔ Feasible adj' L p.toNat := fun L =>
    and_congr_left' (OffDiag.allContiguous h L)
  have h₀' := (hf L₀).1 h₀
  have ho : ∀ L : Labels n, Optimum adj (columnD metric attr) p.toNat L ↔
      Optimum adj' (columnD metric attr) p.toNat L := by
    intro L
    unfold Optimum
    simp only [hf]
  refine ⟨?_, ?_, ?_⟩
  · rw [c116_fit_order hs hp h2 hd h₀, c116_fit_order hs' hp h2 hd h₀', ho]
  · rw [c116_fit_tree hs hp h2 hd h₀, c116_fit_tree hs' hp h2 hd h₀', ho]
  · rw [c116_fit_flow hs hp (by omega) hd h₀ hz, c116_fit_flow hs' hp (by omega) hd h₀' hz]
    simp only [hf]

/-- C139 for the exact max-p method, if there are clusterings to be found and the areas are not all
alike. -/
theorem c139_maxp_exact_partial {quota : Quota n} (hs : Spec.Symmetric adj) (h : AgreeOff adj adj')
    (hq : NumberOrArray quota) (hlen : ∃ cols, quota.cols = .ok cols)
    (hm : ∀ i j, i < j → 0 ≤ metric m (attr i) (attr j))
    (hpos : ∃ i j, i < j ∧ metric m (attr i) (attr j) ≠ 0)
    {L₀ : Labels n} (hL₀ : AllContiguous adj L₀) (hm₀ : QuotaMet L₀ quota) (L : Labels n) :
    (∃ s : Solver (OrderVar n), Correct s ∧ maxpExactFit adj attr quota s metric = .ok L) ↔
      ∃ s : Solver (OrderVar n), Correct s ∧ maxpExactFit adj' attr quota s metric = .ok L := by
  have hs' := symmetric_off h hs
  rw [c116_fit_maxp hs hq hlen hm hpos hL₀ hm₀,
    c116_fit_maxp hs' hq hlen hm hpos ((OffDiag.allContiguous h L₀).1 hL₀) hm₀]
  unfold MaxPOptimum
  simp only [fun L : Labels n => OffDiag.allContiguous h L]

end
end

/-! ### SKATER -/

section
open Skater
variable {n : Nat} {W W' : Adj n}

/-- Scipy visits the links between different areas in the same order. -/
def SameForestOrder (o o' : WeightOrder) (w w' : Fin n → Fin n → ℚ) : Prop :=
  (o.order w).filter (fun e => decide (e.1 ≠ e.2)) = (o'.order w').filter fun e => decide (e.1 ≠ e.2)

/-- The dissimilarities `fit` works with: those of the metric, or 1 without data. -/
def kernelOf (S : SpanningForest) : Option (Σ m : Nat, Fin n → Row m) → Fin n → Fin n → ℚ
  | none => fun _ _ => 1
  | some d => S.metric.kernel d.2

/-- C139 for SKATER, with data or without, with dissimilarities or affinities: entries of `W` on the
diagonal make no difference. -/
theorem c139_skater {o o' : WeightOrder} (S : SpanningForest) (fuel : Nat) (k : Option Int)
    (data : Option (Σ m : Nat, Fin n → Row m)) (quorum : Option ℚ) (trace : Bool) (islands : String)
    (ho : SameForestOrder o o' (dissim W (kernelOf S data)) (dissim W' (kernelOf S data))) :
    Skater.fit o S fuel k W data quorum trace islands =
      Skater.fit o' S fuel k W' data quorum trace islands := by
  have hm : spanningForest o (dissim W (kernelOf S data)) =
      spanningForest o' (dissim W' (kernelOf S data)) := by
    unfold spanningForest
    rw [kruskal_off, kruskal_off (o'.order _), ho]
  unfold Skater.fit
  cases data with
  | none => unfold fitKernel; dsimp only [kernelOf] at hm; rw [hm]
  | some d => unfold fitKernel; dsimp only [kernelOf] at hm ⊢; rw [hm]

/-- C139 for SKATER with a metric for which every observation has dissimilarity 0 from itself: no
hypothesis on the order is needed, the same matrix is handed to scipy. -/
theorem c139_skater_metric (h : AgreeOff W W') (o : WeightOrder) (S : SpanningForest) {m : Nat}
    (data : Fin n → Row m) (h0 : ∀ i, S.metric.kernel data i i = 0) (fuel : Nat) (k : Option Int)
    (quorum : Option ℚ) (trace : Bool) (islands : String) :
    Skater.fit o S fuel k W (some ⟨m, data⟩) quorum trace islands =
      Skater.fit o S fuel k W' (some ⟨m, data⟩) quorum trace islands := by
  have hm : dissim W (S.metric.kernel data) = dissim W' (S.metric.kernel data) := by
    funext i j
    unfold dissim
    by_cases hij : i = j
    · subst hij; rw [h0]; simp
    · rw [h i j hij]
  unfold Skater.fit fitKernel
  simp only [hm]

end

/-! ### Cases -/

/-- The path of four areas with entries on part of the diagonal. -/
def loopPath4 : Adj 4 := fun a b => path4 a b || decide (a = b ∧ a.val ≠ 2)

theorem loopPath4_off : AgreeOff path4 loopPath4 := by unfold AgreeOff; decide +kernel

/-- The hypotheses can be met, and the searches do something on these maps: AZP moves the second area. -/
example : Spec.Symmetric path4 ∧ AgreeOff path4 loopPath4 ∧ path4 ≠ loopPath4 ∧
    SameTreeOrder .rowMajor .rowMajor path4 loopPath4 ∧
    (match azpFit (q := 0) .rowMajor (fun _ => 1) (pairwise manhattan) 50 loopPath4 (column ![0, 5, 5, 5])
        2 (some ![0, 0, 1, 1]) (.azp 0) (fun _ => 0) with
      | .ok (L, _, _) => some (arrayList L)
      | _ => none) = some [0, 1, 1, 1] :=
  ⟨path4_symm, loopPath4_off, fun h => absurd (congrFun (congrFun h 0) 0) (by decide),
    sameLinks_rowMajor loopPath4_off, by decide +kernel⟩

/-- There are also orders different from row by row: any order of the links, the entries on the diagonal
in between. -/
example (o : MstOrder) : SameTreeOrder o o path4 path4 := fun _ _ => rfl

/-- The hypotheses of the theorems about the exact methods hold on these maps. -/
example (r : Rng) (L : Labels 4) :
    (∃ s : Solvers 4, Correct s.order ∧
      exactFit path4 (ramp 4) 2 .order s manhattanM r = .ok (arrayList L)) ↔
    ∃ s : Solvers 4, Correct s.order ∧
      exactFit loopPath4 (ramp 4) 2 .order s manhattanM r = .ok (arrayList L) := by
  refine (c139_exact_partial path4_symm loopPath4_off (by omega) (by norm_num) (by decide +kernel)
    path4_feasible2 (fun c => ?_) r L).1
  by_cases h : c = 0 ∨ c = 1
  · rcases h with rfl | rfl <;> decide +kernel
  · have : (univ.filter fun i => (![0, 0, 1, 1] : Labels 4) i = c) = ∅ := by
      refine filter_eq_empty_iff.2 fun i _ hi => h ?_
      fin_cases i <;> simp at hi <;> omega
    rw [this]; decide

example (L : Labels 4) :
    (∃ s : Solver (OrderVar 4), Correct s ∧ maxpExactFit path4 (ramp 4) pathQuota s manhattanM = .ok L) ↔
    ∃ s : Solver (OrderVar 4), Correct s ∧ maxpExactFit loopPath4 (ramp 4) pathQuota s manhattanM = .ok L :=
  c139_maxp_exact_partial (quota := pathQuota) path4_symm loopPath4_off trivial ⟨_, rfl⟩
    (by decide +kernel) (by decide +kernel) path4_cont path4_quota L

/-- SKATER without data on the path, and with data where a metric does not give 0 on the diagonal: the
hypothesis of `c139_skater` holds for the sorting of `stableOrder`. -/
example : SameForestOrder stableOrder stableOrder
      (Skater.dissim path4 (kernelOf .default none)) (Skater.dissim loopPath4 (kernelOf .default none)) ∧
    Skater.dissim path4 (kernelOf .default none) ≠ Skater.dissim loopPath4 (kernelOf .default none) ∧
    SameForestOrder stableOrder stableOrder
      (Skater.dissim path4 (kernelOf ⟨.dissimilarity fun _ x y => manhattan x y + 3, List.sum,
        fun _ => meanRow⟩ (some ⟨1, ramp 4⟩)))
      (Skater.dissim loopPath4 (kernelOf ⟨.dissimilarity fun _ x y => manhattan x y + 3, List.sum,
        fun _ => meanRow⟩ (some ⟨1, ramp 4⟩))) := by
  unfold SameForestOrder
  exact ⟨by decide +kernel, fun h => absurd (congrFun (congrFun h 0) 0) (by decide +kernel),
    by decide +kernel⟩

/-- The hypothesis of `c139_skater_metric` holds for the default metric. -/
example (i : Fin 4) : Skater.SpanningForest.default.metric.kernel (ramp 4) i i = 0 := by
  revert i; decide +kernel

/-- The complete graph on three areas, without and with entries on the diagonal. -/
def triangle3 : Adj 3 := fun a b => decide (a ≠ b)
def loop3 : Adj 3 := fun _ _ => true

/-- Not so for the max-p heuristic: without entries on the diagonal it grows a region of the three areas,
with them it raises (the last area added is taken a second time). -/
theorem c139_maxp_loops : AgreeOff triangle3 loop3 ∧
    (match growRegions manhattan triangle3 (column ![0, 5, 6]) (fun _ (_ : Fin 1) => 1) (fun _ => 3)
        (fun _ => 0) with
      | .ok (g, _) => some g
      | _ => none) = some ([[0, 1, 2]], []) ∧
    (match growRegions manhattan loop3 (column ![0, 5, 6]) (fun _ (_ : Fin 1) => 1) (fun _ => 3)
        (fun _ => 0) with
      | .raise e => some e
      | _ => none) = some (.valueError "list.remove(x): x not in list") := by
  refine ⟨?_, ?_, ?_⟩
  · unfold AgreeOff; decide
  · decide +kernel
  · decide +kernel

open Classical in
/-- C139 (part, the max-p heuristic with AZP): with areas listed as their own neighbors `fit` still ends; if
it does not raise, it returns contiguous regions that all reach the threshold, and it only raises if there
are such areas. -/
theorem c139_maxp_partial {n q : Nat} {ρ : Type} (o : MstOrder) (expf : ℚ → ℚ) {obj : Objective ρ}
    (he : obj.Exact) (ht : obj.Total) (metric : ρ → ρ → ℚ) {adj : Adj n} (hs : Spec.Symmetric adj)
    (attr : Fin n → ρ) (spat : Fin n → Fin q → ℚ) (thr : Fin q → ℚ) (hpos : ∀ v j, 0 ≤ spat v j)
    (htot : ∀ v j, thr j ≤ ∑ u ∈ Finset.univ.filter (fun u => SameIsland adj v u), spat u j)
    (maxIt : Nat) (hit : 0 < maxIt) (fuel : Nat) (hf : n + n ^ n < fuel) (st : Strat n q) (r : Rng) :
    ((∃ v, adj v v = true) ∧ ∃ e,
      maxpFit (azpSearch o expf obj fuel adj attr) metric obj adj attr spat thr maxIt st r = .raise e) ∨
    ∃ p L st' r', maxpFit (azpSearch o expf obj fuel adj attr) metric obj adj attr spat thr maxIt st r =
        .ok (p, some L, st', r') ∧ Feasible adj L p ∧ MeetsThreshold L spat thr := by
  have := maxpFit_post_loops (azpSearch o expf obj fuel adj attr) obj attr (R := ∃ v, adj v v = true)
    (T := False)
    (S := fun st => st.HasThr spat thr) (S0 := fun _ => True) metric hs
    (fun h v => by simpa using not_exists.1 h v) spat thr hpos
    (fun _ v C hnd hC j => by
      have := htot v j
      unfold colSum
      rw [← List.sum_toFinset (fun v => spat v j) hnd]
      have hset : C.toFinset = Finset.univ.filter (fun u => SameIsland adj v u) := by
        ext u; simp [hC]
      rwa [hset])
    (fun _ _ => ⟨rfl, rfl⟩) (fun _ _ => trivial)
    (O := fun p L => Feasible adj L p ∧ MeetsThreshold L spat thr) maxIt st trivial r
    (fun p init st r _ hc h0 hp hm hst => by
      change (azpFit o expf obj fuel adj attr (p : Int) (some init) st r >>= _).Post _ _ _
      refine Res.Post.bind ((maxp_azpFit o expf he ht hpos hs attr p init hc (by rw [hp]) h0 hm fuel hf
        st hst r).mono (fun h => h.elim) id fun _ h => h) ?_
      rintro ⟨L, st', r'⟩ _ ⟨h1, h2, h3, h4⟩
      exact ⟨⟨L, rfl, ⟨h2, by exact_mod_cast h3⟩, h4⟩, h1⟩)
  cases hx : maxpFit (azpSearch o expf obj fuel adj attr) metric obj adj attr spat thr maxIt st r with
  | raise e => rw [hx] at this; exact Or.inl ⟨this, e, rfl⟩
  | timeout => rw [hx] at this; exact this.elim
  | ok x =>
    obtain ⟨p, out, st', r'⟩ := x
    obtain ⟨_, h4, h5, _⟩ := this.ok hx
    obtain ⟨L, hL⟩ := Option.ne_none_iff_exists'.1 (h5 hit)
    dsimp only at hL
    subst hL
    exact Or.inr ⟨p, L, st', r', rfl, (h4 L rfl).1, (h4 L rfl).2⟩

/-- Both happen on the three areas with entries on the diagonal, with different thresholds. -/
example : (match maxpFit (azpSearch .rowMajor (fun _ => 0) (pairwise manhattan) 40 loop3
        (column ![0, 5, 6])) manhattan (pairwise manhattan) loop3 (column ![0, 5, 6])
        (fun _ (_ : Fin 1) => 1) (fun _ => 2) 1 (.azp 0) (fun _ => 0) with
      | .ok (p, some L, _, _) => (p, arrayList L)
      | _ => (0, [])) = (1, [0, 0, 0]) ∧
    (match maxpFit (azpSearch .rowMajor (fun _ => 0) (pairwise manhattan) 40 loop3
        (column ![0, 5, 6])) manhattan (pairwise manhattan) loop3 (column ![0, 5, 6])
        (fun _ (_ : Fin 1) => 1) (fun _ => 3) 1 (.azp 0) (fun _ => 0) with
      | .raise e => some e
      | _ => none) = some (.valueError "list.remove(x): x not in list") := by
  refine ⟨by decide +kernel, by decide +kernel⟩

end Region.Props
