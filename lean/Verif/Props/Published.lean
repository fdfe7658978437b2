import Verif.Lemmas.Published
/-
Property theorem C127: the examples of the test suite.
-/
namespace Region.Props

open Region Spec

/-! ### C127 -/

section
variable {ρ : Type} {metric : ρ → ρ → ℚ} {attr : Fin 9 → ρ} {c : ℚ}

/-- One attribute: the dissimilarities are the differences. -/
theorem duqueLike_single :
    DuqueLike (fun i j => manhattan (column duqueAttr i) (column duqueAttr j)) 1 := by
  refine ⟨by norm_num, fun i j => ?_⟩
  rw [one_mul]
  revert i j
  decide +kernel

/-- The attribute twice (`double_attr`): twice the differences. -/
theorem duqueLike_double :
    DuqueLike (fun i j => manhattan (fun _ : Fin 2 => duqueAttr i) fun _ => duqueAttr j) 2 := by
  refine ⟨by norm_num, fun i j => ?_⟩
  revert i j
  decide +kernel

/-- C127 for AZP: on the nine areas of the tests every run, whatever the draws, returns the expected two
regions. -/
theorem c127_azp {q : Nat} (o : MstOrder) (expf : ℚ → ℚ) (hd : Dissimilarity metric)
    (h : DuqueLike (fun i j => metric (attr i) (attr j)) c) (fuel : Nat) (hf : 9 + 9 ^ 9 < fuel) (v : ℚ)
    (rng : Rng) :
    ∃ L st' rng', azpFit (q := q) o expf (pairwise metric) fuel duqueAdj attr 2 none (.azp v) rng =
        .ok (L, st', rng') ∧
      SamePartition L duqueLabels ∧ ∀ i, L i = 0 ∨ L i = 1 := by
  have hcomp : nComponents duqueAdj = 1 := (nComponents_eq_one_iff _).2 duque_connected
  obtain ⟨L, st', rng', h1, h2, h3⟩ := c22_fit_from_scratch (q := q) o expf
    (pairwise_exact hd.symm hd.zero) (pairwise_total metric) duque_symm attr 2 le_rfl (by norm_num)
    (by rw [hcomp]; norm_num) fuel hf (.azp v) rng
  have hopt := c26_fit_partial o expf hd duque_symm attr h.tieFree 2 none fuel v rng h1
  refine ⟨L, st', rng', h1, duque_unique h h2 fun a u hm => ?_, fun i => ?_⟩
  · have := hopt a (L u) (by have := h3 a; omega) (by have := h3 u; omega) hm
    rwa [c18_pairwise, c18_pairwise] at this
  · have := h3 i
    omega

/-- From a feasible start AZP ends with a feasible clustering that no admissible move improves. -/
private theorem azp_start_optimum {n p q : Nat} {ρ : Type} {metric : ρ → ρ → ℚ} (o : MstOrder)
    (expf : ℚ → ℚ) (hd : Dissimilarity metric) {adj : Adj n} (hs : Spec.Symmetric adj) (attr : Fin n → ρ)
    (ht : TieFree fun i j => metric (attr i) (attr j)) {init : Labels n} (hi : Feasible adj init p)
    (hfree : ∀ i, init i ≠ -1) (fuel : Nat) (hf : n + n ^ n < fuel) (v : ℚ) (rng : Rng) :
    ∃ L st' rng', azpFit (q := q) o expf (pairwise metric) fuel adj attr p (some init) (.azp v) rng =
        .ok (L, st', rng') ∧ Feasible adj L p ∧
      ∀ a u, Admissible adj L a (L u) → withinPairs L (fun i j => metric (attr i) (attr j)) ≤
        withinPairs (moved L a (L u)) fun i j => metric (attr i) (attr j) := by
  have he : (pairwise metric).Exact := pairwise_exact hd.symm hd.zero
  obtain ⟨⟨L, st', rng'⟩, h1⟩ := c24_fit_terminates (q := q) o expf he (pairwise_total metric) attr p
    (some init) ⟨hi.1, by rw [hi.2], fun v => ⟨v, .refl, hfree v⟩⟩ fuel hf (.azp v) rng
  have h1' := h1
  rw [azpFit_eq_fitAny] at h1'
  obtain ⟨-, h2, h3⟩ := c21_fit_keeps_feasible o hs attr _ _ fuel p init (Strat.azp (n := n) (q := q) v) rng h1'
  have hfr : ∀ i, L i ≠ -1 := by
    intro i
    obtain ⟨w, hw⟩ := (h3 (L i)).1 ⟨i, rfl⟩
    rw [← hw]; exact hfree w
  have hopt := c26_fit_partial o expf hd hs attr ht p (some init) fuel v rng h1
  refine ⟨L, st', rng', h1, by simpa using h2, fun a u hm => ?_⟩
  have := hopt a (L u) (hfr a) (hfr u) hm
  rwa [c18_pairwise, c18_pairwise] at this

/-- C127 for AZP with initial labels: every start leads to the expected regions. -/
theorem c127_azp_start {q : Nat} (o : MstOrder) (expf : ℚ → ℚ) (hd : Dissimilarity metric)
    (h : DuqueLike (fun i j => metric (attr i) (attr j)) c) {init : Labels 9}
    (hi : Feasible duqueAdj init 2) (hfree : ∀ i, init i ≠ -1) (fuel : Nat) (hf : 9 + 9 ^ 9 < fuel)
    (v : ℚ) (rng : Rng) :
    ∃ L st' rng', azpFit (q := q) o expf (pairwise metric) fuel duqueAdj attr 2 (some init) (.azp v) rng =
        .ok (L, st', rng') ∧
      SamePartition L duqueLabels := by
  obtain ⟨L, st', rng', h1, h2, h3⟩ := azp_start_optimum (q := q) o expf hd duque_symm attr h.tieFree hi
    hfree fuel hf v rng
  exact ⟨L, st', rng', h1, duque_unique h h2 h3⟩

/-- A start from which the regions have to change. -/
example : Dissimilarity (manhattan (m := 1)) ∧
    Feasible duqueAdj (![0, 1, 1, 1, 1, 1, 1, 1, 1] : Labels 9) 2 ∧
    ¬ SamePartition (![0, 1, 1, 1, 1, 1, 1, 1, 1] : Labels 9) duqueLabels ∧
    ∀ i, (![0, 1, 1, 1, 1, 1, 1, 1, 1] : Labels 9) i ≠ -1 :=
  ⟨manhattan_dissimilarity, duque_feasible_of (by decide +kernel) (x := 0) (y := 1) (m := 1)
    (by decide +kernel) (by decide +kernel) (by decide +kernel) (by decide +kernel),
    by unfold SamePartition; decide +kernel, by decide +kernel⟩

end

section
variable {m : Nat} {metric : Metric} {attr : Fin 9 → Row m} {c : ℚ}

/-- `fit(…, method="order")` on the nine areas, with any solver that works, returns the expected
regions. -/
theorem c127_order (h : DuqueLike (columnD metric attr) c) {s : Solvers 9} (hc : Correct s.order) (r : Rng) :
    ∃ L : Labels 9, exactFit duqueAdj attr 2 .order s metric r = .ok (arrayList L) ∧
      SamePartition L duqueLabels := by
  obtain ⟨P, hP⟩ := (c50_order_builds (adj := duqueAdj) (d := columnD metric attr) (p := 2)
    (by omega) (by omega)).2 (by omega)
  have hsol := hc P (c51_order_solvable duque_symm (by omega) (by omega) hP duque_feasible)
  obtain ⟨a, ha, hv⟩ := hsol
  refine ⟨_, exactFit_order (by omega) (by omega) hP, duque_optimum h
    ⟨(c50_order_sound (by omega) hP ha.1 hv).1, fun L' hL' => ?_⟩⟩
  exact c54_order_optimal duque_symm (by omega) (by omega) (fun i j hij => (h.pos hij.ne).le) hP ⟨a, ha, hv⟩ hL'

/-- `fit(…, method="tree")` likewise. -/
theorem c127_tree (h : DuqueLike (columnD metric attr) c) {s : Solvers 9} (hc : Correct s.tree) (r : Rng) :
    ∃ L : Labels 9, exactFit duqueAdj attr 2 .tree s metric r = .ok (arrayList L) ∧
      SamePartition L duqueLabels := by
  obtain ⟨P, hP⟩ := c52_tree_builds (adj := duqueAdj) (d := columnD metric attr) (p := 2)
  have hsol := hc P (c53_tree_solvable duque_symm (by omega) hP duque_feasible)
  obtain ⟨l, hl, hlen, hf, -⟩ := c54_tree_decodes (by omega) (fun i j hij => h.pos hij.ne) hP hsol r
  have hinj : ∀ i j : Fin 9, ((labelsOf l i : Nat) : Int) = ((labelsOf l j : Nat) : Int) ↔
      labelsOf l i = labelsOf l j := fun i j => Int.natCast_inj
  refine ⟨fun i => (labelsOf l i : Nat), ?_, duque_optimum h
    ⟨⟨allContiguous_congr hinj hf.1, (numRegions_congr hinj).trans hf.2⟩, fun L' hL' => ?_⟩⟩
  · unfold exactFit
    rw [if_neg (by omega), if_neg (by omega)]
    simp only [tree, show (2 : Int).toNat = 2 from rfl, hP, Res.bind_ok, hl, Res.ok.injEq]
    apply List.ext_getElem
    · simp [arrayList, hlen]
    · intro i h1 h3
      simp [arrayList, labelsOf, List.getD_eq_getElem?_getD]
      rw [List.getElem?_eq_getElem (by simpa using h1)]
      rfl
  · rw [withinPairs_congr hinj]
    exact c54_tree_optimal duque_symm (by omega) (fun i j hij => (h.pos hij.ne).le) hP hsol hl hL'

/-- `fit(…, method="flow")` likewise, although it misses clusterings with a large region. -/
theorem c127_flow (h : DuqueLike (columnD metric attr) c) {s : Solvers 9} (hc : Correct s.flow) (r : Rng) :
    ∃ L : Labels 9, exactFit duqueAdj attr 2 .flow s metric r = .ok (arrayList L) ∧
      SamePartition L duqueLabels := by
  have hsize : ∀ c, ((Finset.univ.filter fun i => duqueLabels i = c).card : Int) ≤ (9 : Nat) - (2 : Nat) := by
    intro c
    have h3 : ∀ v, duqueLabels v = 0 ∨ duqueLabels v = 1 := by decide +kernel
    by_cases h0 : c = 0
    · subst h0; decide +kernel
    by_cases h1 : c = 1
    · subst h1; decide +kernel
    · have : (Finset.univ.filter fun i => duqueLabels i = c) = ∅ := by
        rw [Finset.filter_eq_empty_iff]
        rintro i - rfl
        rcases h3 i with h | h
        · exact h0 h
        · exact h1 h
      rw [this]
      decide
  obtain ⟨P, hP⟩ := (c48_flow_builds (adj := duqueAdj) (d := columnD metric attr) (p := 2)
    (by omega)).2 duque_symm
  have hsol := hc P (c49_flow_solvable (by omega) hP duque_feasible hsize)
  obtain ⟨a, ha, hv⟩ := hsol
  have hle := c54_flow_optimal_partial (by omega) (fun i j hij => (h.pos hij.ne).le) hP ⟨a, ha, hv⟩
    duque_feasible hsize
  refine ⟨_, exactFit_flow (by omega) (by omega) hP, duque_optimum h
    ⟨(c48_flow_sound (by omega) hP ha.1 hv).1, fun L' hL' => ?_⟩⟩
  exact hle.trans ((duque_best h).2 L' hL')

/-- One attribute and the attribute twice. -/
example : DuqueLike (columnD manhattanM (column duqueAttr)) 1 ∧
    DuqueLike (columnD manhattanM fun i (_ : Fin 2) => duqueAttr i) 4 := by
  constructor <;> refine ⟨by norm_num, fun i j => ?_⟩ <;> revert i j <;> decide +kernel

end

end Region.Props
