import Verif.Props.MaxpEnds
import Verif.Props.Compare
import Verif.Props.ExactResults
/-
Property theorems C142: the extreme thresholds of the max-p problem.  With the reactive tabu search the
heuristic raises an exception instead of returning single areas (`c133_reactive_raises`).
-/
namespace Region.Props

open Region Spec Finset

/-- Every area is a region of its own. -/
def AllAlone {n : Nat} (L : Labels n) : Prop := Function.Injective L

/-- All areas are in one region. -/
def AllTogether {n : Nat} (L : Labels n) : Prop := ∀ u v, L u = L v

section
variable {n : Nat}

theorem allAlone_of_numRegions {L : Labels n} (h : numRegions L = n) : AllAlone L := by
  have h1 : (univ.image L).card = (univ : Finset (Fin n)).card := by
    rw [card_univ, Fintype.card_fin]
    exact h
  intro u v h
  exact card_image_iff.1 h1 (by simp) (by simp) h

theorem numRegions_le (L : Labels n) : numRegions L ≤ n := by
  unfold numRegions
  exact card_image_le.trans (by rw [card_univ, Fintype.card_fin])

theorem allTogether_of_numRegions {L : Labels n} (h : numRegions L ≤ 1) : AllTogether L := fun u v =>
  card_le_one.1 h _ (mem_image_of_mem _ (mem_univ u)) _ (mem_image_of_mem _ (mem_univ v))

/-- `max_p` is the largest number of regions constructed, whatever the local search. -/
theorem maxpFit_most {ς : Type} {q : Nat} {ρ : Type} {ls : LocalSearch ς n q} {metric : ρ → ρ → ℚ}
    {obj : Objective ρ} {adj : Adj n} {attr : Fin n → ρ} {spat : Fin n → Fin q → ℚ} {thr : Fin q → ℚ}
    {maxIt : Nat} {st : ς} {r : Rng} {x : Nat × Option (Labels n) × ς × Rng}
    (h : maxpFit ls metric obj adj attr spat thr maxIt st r = .ok x) :
    ∃ runs r', growRuns metric adj attr spat thr maxIt r = .ok (runs, r') ∧ x.1 = mostRegions runs := by
  have hcon := construct_spec metric adj attr spat thr maxIt [] r
  change construct metric adj attr spat thr maxIt 0 [] r = _ at hcon
  unfold maxpFit at h
  rw [hcon] at h
  cases hr : growRuns metric adj attr spat thr maxIt r with
  | ok y =>
    rw [hr] at h
    obtain ⟨runs, r'⟩ := y
    refine ⟨runs, r', rfl, ?_⟩
    simp only [Res.bind_ok] at h
    obtain ⟨⟨f, r2⟩, h2, h⟩ := Res.bind_eq_ok.1 h
    obtain ⟨⟨b, s, r3⟩, h3, h⟩ := Res.bind_eq_ok.1 h
    cases h
    rfl
  | raise e => rw [hr] at h; cases h
  | timeout => rw [hr] at h; cases h

/-- C142: if every area reaches the thresholds alone, the heuristic finds as many regions as there are areas,
whatever the local search. -/
theorem c142_max_p {ς : Type} {q : Nat} {ρ : Type} (ls : LocalSearch ς n q) (metric : ρ → ρ → ℚ)
    (obj : Objective ρ) {adj : Adj n} (hs : Spec.Symmetric adj) (hloop : ∀ v, adj v v = false) (attr : Fin n → ρ)
    {spat : Fin n → Fin q → ℚ} {thr : Fin q → ℚ} (hall : ∀ v j, thr j ≤ spat v j) {maxIt : Nat} (hit : 0 < maxIt)
    {st : ς} {r : Rng} {x : Nat × Option (Labels n) × ς × Rng}
    (h : maxpFit ls metric obj adj attr spat thr maxIt st r = .ok x) : x.1 = n := by
  obtain ⟨runs, r', hr, hmost⟩ := maxpFit_most h
  obtain ⟨hlen, hthree⟩ := alone_growRuns metric hs hloop attr hall _ _ hr
  have hne : runs ≠ [] := by
    rintro rfl
    simp at hlen
    omega
  obtain ⟨pe, hpe, heq⟩ := exists_mostRegions hne
  rw [hmost, ← heq, hthree pe hpe]

section
variable {q : Nat} {ρ : Type} (o : MstOrder) (expf : ℚ → ℚ) {adj : Adj n} (hs : Spec.Symmetric adj)
  (hloop : ∀ v, adj v v = false) (attr : Fin n → ρ) {spat : Fin n → Fin q → ℚ} {thr : Fin q → ℚ}
  (hpos : ∀ v j, 0 ≤ spat v j)

open Classical in
theorem alone_total (hpos : ∀ v j, 0 ≤ spat v j) (hall : ∀ v j, thr j ≤ spat v j) (v : Fin n) (j : Fin q) :
    thr j ≤ ∑ u ∈ univ.filter (fun u => SameIsland adj v u), spat u j :=
  (hall v j).trans (single_le_sum (f := fun u => spat u j) (fun u _ => hpos u j)
    (mem_filter.2 ⟨mem_univ v, Relation.ReflTransGen.refl⟩))

include hs hloop hpos in
/-- C142, AZP: the heuristic returns, and every area is a region of its own. -/
theorem c142_azp_alone_partial {obj : Objective ρ} (he : obj.Exact) (ht : obj.Total) (metric : ρ → ρ → ℚ)
    (hall : ∀ v j, thr j ≤ spat v j) {maxIt : Nat} (hit : 0 < maxIt)
    {fuel : Nat} (hf : n + n ^ n < fuel) (st : Strat n q) (r : Rng) :
    ∃ L st' r', maxpFit (azpSearch o expf obj fuel adj attr) metric obj adj attr spat thr maxIt st r =
      .ok (n, some L, st', r') ∧ AllAlone L := by
  obtain ⟨p, L, st', r', h1, h2, -⟩ := c43_fit o expf he ht metric hs hloop attr spat thr hpos
    (fun v j => by convert alone_total hpos hall v j) maxIt hit fuel hf st r
  have hp : p = n := c142_max_p _ metric obj hs hloop attr hall hit h1
  subst hp
  exact ⟨L, st', r', h1, allAlone_of_numRegions h2.2⟩

include hs hloop hpos in
/-- C142, simulated annealing with bounded inner iterations. -/
theorem c142_annealing_alone_partial {obj : Objective ρ} (he : obj.Exact) (ht : obj.Total) (metric : ρ → ρ → ℚ)
    (hall : ∀ v j, thr j ≤ spat v j) {maxIt : Nat} (hit : 0 < maxIt) (P : SaParams) (term : Nat)
    (hterm : 0 < term) (hPt : P.saMovesTerm = .int term)
    (M : Nat) (hM : P.maxIt = some (M : Int)) (f1 f2 f3 : Nat)
    (hf1 : n ^ n * P.repsBeforeTermination.toNat < f1) (hf2 : M ≤ f2) (hf3 : n + n ^ n < f3) (self : SaObj) (r : Rng) :
    ∃ L self' r', maxpFit (saSearch o expf obj f1 f2 f3 P adj attr) metric obj adj attr spat thr maxIt self r =
      .ok (n, some L, self', r') ∧ AllAlone L := by
  obtain ⟨p, L, st', r', h1, h2⟩ := c133_annealing o expf he ht metric hs hloop attr spat thr hpos
    (fun v j => by convert alone_total hpos hall v j) maxIt hit P term hterm hPt M hM f1 f2 f3 hf1 hf2 hf3 self r
  have hp : p = n := c142_max_p _ metric obj hs hloop attr hall hit h1
  subst hp
  exact ⟨L, st', r', h1, allAlone_of_numRegions h2.2⟩

include hs hloop hpos in
/-- C142, basic tabu search: every result, if some threshold is positive. -/
theorem c142_basic_tabu_alone_partial (metric : ρ → ρ → ℚ) (hall : ∀ v j, thr j ≤ spat v j) (hthr : ∃ j, 0 < thr j)
    {maxIt fuel : Nat} (hit : 0 < maxIt) (len : Option Nat) (reps : Int) (st : Strat n q) (r : Rng) {p : Nat}
    {L : Labels n} {st' : Strat n q} {r' : Rng}
    (h : maxpFit (basicTabuSearch o expf (pairwise metric) fuel len reps adj attr) metric
      (pairwise metric) adj attr spat thr maxIt st r = .ok (p, some L, st', r')) : p = n ∧ AllAlone L := by
  have h2 := (c45_basic_tabu_partial o expf metric hs attr spat thr hpos maxIt fuel len reps st r h).2.2.2 hthr
  have hp : p = n := c142_max_p _ metric (pairwise metric) hs hloop attr hall hit h
  subst hp
  exact ⟨rfl, allAlone_of_numRegions h2.2⟩

/-- C142: if the total of some column does not suffice for two regions, clusterings that reach the threshold
consist of one region. -/
theorem c142_together {L : Labels n} (h : MeetsThreshold L spat thr) {j : Fin q} (hj : 0 < thr j)
    (htot : ∑ v, spat v j < 2 * thr j) : AllTogether L := by
  have h1 := (c87_bound h j).trans_lt htot
  have h2 : (numRegions L : ℚ) < 2 := lt_of_mul_lt_mul_right h1 hj.le
  have h3 : numRegions L < 2 := by exact_mod_cast h2
  exact allTogether_of_numRegions (by omega)

include hs hpos in
/-- C142, basic tabu search: one region if the total does not suffice for two. -/
theorem c142_basic_tabu_together (metric : ρ → ρ → ℚ) {j : Fin q} (hj : 0 < thr j)
    (htot : ∑ v, spat v j < 2 * thr j)
    (maxIt fuel : Nat) (len : Option Nat) (reps : Int) (st : Strat n q) (r : Rng) {p : Nat}
    {L : Labels n} {st' : Strat n q} {r' : Rng}
    (h : maxpFit (basicTabuSearch o expf (pairwise metric) fuel len reps adj attr) metric
      (pairwise metric) adj attr spat thr maxIt st r = .ok (p, some L, st', r')) : AllTogether L :=
  c142_together (c45_basic_tabu_partial o expf metric hs attr spat thr hpos maxIt fuel len reps st r h).2.1 hj htot

include hs hloop hpos in
open Classical in
/-- C142, AZP: one region if the total does not suffice for two, but every island reaches the threshold. -/
theorem c142_azp_together {obj : Objective ρ} (he : obj.Exact) (ht : obj.Total) (metric : ρ → ρ → ℚ)
    (hisl : ∀ v j, thr j ≤ ∑ u ∈ univ.filter (fun u => SameIsland adj v u), spat u j) {j : Fin q}
    (hj : 0 < thr j) (htot : ∑ v, spat v j < 2 * thr j) {maxIt : Nat} (hit : 0 < maxIt)
    {fuel : Nat} (hf : n + n ^ n < fuel) (st : Strat n q) (r : Rng) :
    ∃ p L st' r', maxpFit (azpSearch o expf obj fuel adj attr) metric obj adj attr spat thr maxIt st r =
      .ok (p, some L, st', r') ∧ p ≤ 1 ∧ AllTogether L := by
  obtain ⟨p, L, st', r', h1, h2, h3, -⟩ := c43_fit o expf he ht metric hs hloop attr spat thr hpos
    hisl maxIt hit fuel hf st r
  have h4 := c142_together h3 hj htot
  refine ⟨p, L, st', r', h1, ?_, h4⟩
  rw [← h2.2]
  refine card_le_one.2 fun a ha b hb => ?_
  obtain ⟨u, -, rfl⟩ := mem_image.1 ha
  obtain ⟨v, -, rfl⟩ := mem_image.1 hb
  exact h4 u v

include hs hloop hpos in
open Classical in
/-- C142, simulated annealing with bounded inner iterations: one region, too. -/
theorem c142_annealing_together {obj : Objective ρ} (he : obj.Exact) (ht : obj.Total) (metric : ρ → ρ → ℚ)
    (hisl : ∀ v j, thr j ≤ ∑ u ∈ univ.filter (fun u => SameIsland adj v u), spat u j) {j : Fin q}
    (hj : 0 < thr j) (htot : ∑ v, spat v j < 2 * thr j) {maxIt : Nat} (hit : 0 < maxIt) (P : SaParams)
    (term : Nat) (hterm : 0 < term) (hPt : P.saMovesTerm = .int term)
    (M : Nat) (hM : P.maxIt = some (M : Int)) (f1 f2 f3 : Nat)
    (hf1 : n ^ n * P.repsBeforeTermination.toNat < f1) (hf2 : M ≤ f2) (hf3 : n + n ^ n < f3) (self : SaObj) (r : Rng) :
    ∃ p L self' r', maxpFit (saSearch o expf obj f1 f2 f3 P adj attr) metric obj adj attr spat thr maxIt self r =
      .ok (p, some L, self', r') ∧ p ≤ 1 ∧ AllTogether L := by
  obtain ⟨p, L, st', r', h1, h2⟩ := c133_annealing o expf he ht metric hs hloop attr spat thr hpos
    hisl maxIt hit P term hterm hPt M hM f1 f2 f3 hf1 hf2 hf3 self r
  obtain ⟨p0, L0, st0, r0, g1, g2, -⟩ := c142_azp_together o expf hs hloop attr hpos he ht metric hisl hj htot
    hit (fuel := f3) hf3 (.azp 0) r
  obtain ⟨runs, r2, e1, rfl⟩ := maxpFit_most h1
  obtain ⟨runs', r3, e2, rfl⟩ := maxpFit_most g1
  rw [e1] at e2
  cases e2
  exact ⟨_, L, st', r', h1, g2, allTogether_of_numRegions (h2.2.le.trans g2)⟩

end

section
variable {m q : Nat} {adj : Adj n} {attr : Fin n → Row m} {metric : Metric} {spat : Fin n → Row q} {thr : ℚ}

/-- C142, the exact method: every area is a region of its own if every area reaches the threshold alone. -/
theorem c142_exact_alone (hs : Spec.Symmetric adj) (hm : ∀ i j, i < j → 0 ≤ metric m (attr i) (attr j))
    (hpos : ∃ i j, i < j ∧ metric m (attr i) (attr j) ≠ 0) (hall : ∀ v j, thr ≤ spat v j)
    {s : Solver (OrderVar n)} (hcor : Correct s) :
    ∃ L, maxpExactFit adj attr (.rowsReal spat thr) s metric = .ok L ∧ AllAlone L := by
  have hinj : Function.Injective (fun v : Fin n => (v.val : Int)) := fun u v h => by
    have : (u.val : Int) = v.val := h
    exact Fin.ext (by exact_mod_cast this)
  have h1 : AllContiguous adj (fun v : Fin n => (v.val : Int)) := by
    intro u
    refine ⟨⟨u, rfl⟩, fun a ha b hb => ?_⟩
    rw [hinj (ha.trans hb.symm)]
    exact Relation.ReflTransGen.refl
  have h2 : MeetsThreshold (fun v : Fin n => (v.val : Int)) spat fun _ => thr := by
    intro v j
    have : (univ.filter fun u : Fin n => (u.val : Int) = v.val) = {v} := by
      ext u
      simp only [mem_filter, mem_univ, true_and, mem_singleton]
      exact ⟨fun h => hinj h, fun h => by rw [h]⟩
    rw [this, sum_singleton]
    exact hall v j
  obtain ⟨L, h4, -, -, h5, -⟩ := exact_maxp_best (metric := metric) hs hm hpos h1 h2 hcor
  refine ⟨L, h4, allAlone_of_numRegions (le_antisymm (numRegions_le L) (le_trans (le_of_eq ?_) h5))⟩
  unfold numRegions
  rw [card_image_of_injective _ hinj, card_univ, Fintype.card_fin]

/-- C142, the exact method: one region if the total does not suffice for two. -/
theorem c142_exact_together (hs : Spec.Symmetric adj) (hm : ∀ i j, i < j → 0 ≤ metric m (attr i) (attr j))
    (hpos : ∃ i j, i < j ∧ metric m (attr i) (attr j) ≠ 0) (hcon : Connected adj) {j : Fin q} (hj : 0 < thr)
    (hone : ∀ j, thr ≤ ∑ v, spat v j) (htot : ∑ v, spat v j < 2 * thr)
    {s : Solver (OrderVar n)} (hcor : Correct s) :
    ∃ L, maxpExactFit adj attr (.rowsReal spat thr) s metric = .ok L ∧ AllTogether L := by
  have h1 : AllContiguous adj (fun _ : Fin n => (0 : Int)) := by
    intro u
    refine ⟨⟨u, rfl⟩, fun a _ b _ => ?_⟩
    have := hcon.2 a b
    induction this with
    | refl => exact .refl
    | tail _ h ih => exact Relation.ReflTransGen.tail (ih rfl) ⟨rfl, rfl, h⟩
  have h2 : MeetsThreshold (fun _ : Fin n => (0 : Int)) spat fun _ => thr := by
    intro v j
    simpa using hone j
  obtain ⟨L, h4, -, h5, -⟩ := exact_maxp_best (metric := metric) hs hm hpos h1 h2 hcor
  exact ⟨L, h4, c142_together h5 hj htot⟩

end
end

/-! ### Concrete cases -/

/-- Path of four areas with one unit each and threshold 1: four regions, whatever the draws. -/
example (r : Rng) : ∃ L st' r', maxpFit (azpSearch .rowMajor (fun _ => 0) (pairwise manhattan) 300 path4
      (column ![0, 1, 10, 100])) manhattan (pairwise manhattan) path4 (column ![0, 1, 10, 100])
      (fun _ (_ : Fin 1) => 1) (fun _ => 1) 2 (.azp 0) r = .ok (4, some L, st', r') ∧ AllAlone L :=
  c142_azp_alone_partial .rowMajor _ path4_symm' (by decide) _ (by intros; norm_num)
    (c24_pairwise manhattan_dissimilarity.symm manhattan_dissimilarity.zero).1
    (c24_pairwise manhattan_dissimilarity.symm manhattan_dissimilarity.zero).2 _
    (by intros; norm_num) (by norm_num) (by decide) _ r

/-- The hypotheses of the theorems on one region: the total is 4, the threshold 3. -/
example : (0 : ℚ) < 3 ∧ (∑ v : Fin 4, (fun _ (_ : Fin 1) => (1 : ℚ)) v 0) < 2 * 3 ∧
    (∀ j, (3 : ℚ) ≤ ∑ v : Fin 4, (fun _ (_ : Fin 1) => (1 : ℚ)) v j) ∧ Connected path4 :=
  ⟨by norm_num, by simp; norm_num, fun _ => by simp; norm_num, (nComponents_eq_one_iff _).1 (by decide +kernel)⟩

/-- A clustering with threshold 3. -/
example : MeetsThreshold (fun _ => 0 : Labels 4) (fun _ (_ : Fin 1) => (1 : ℚ)) fun _ => 3 := by
  intro v j
  simp
  norm_num

end Region.Props
