import Verif.Lemmas.PublishedSquare
/-
Property theorem C127: the examples of the test suite for the max-p methods.
-/
namespace Region.Props

open Region Spec

/-! ### C127, max-p -/

/-- One attribute and the attribute twice. -/
theorem squareLike_single : SquareLike fun i j => manhattan (column squareAttr i) (column squareAttr j) :=
  ⟨fun i j => by revert i j; decide +kernel, fun i j => by revert i j; decide +kernel⟩

theorem squareLike_double :
    SquareLike fun i j => manhattan (fun _ : Fin 2 => squareAttr i) fun _ => squareAttr j :=
  ⟨fun i j => by revert i j; decide +kernel, fun i j => by revert i j; decide +kernel⟩

/-- C127 for the heuristic for the max-p-regions problem: on the four areas of the tests every run, whatever
the draws and the number of iterations, finds the two expected regions. -/
theorem c127_maxp_heu {ρ : Type} {q : Nat} (hq : 0 < q) (o : MstOrder) (expf : ℚ → ℚ) {metric : ρ → ρ → ℚ}
    (hsym : ∀ x y, metric x y = metric y x) (h0 : ∀ x, metric x x = 0) {attr : Fin 4 → ρ}
    (h : SquareLike fun i j => metric (attr i) (attr j)) (maxIt : Nat) (hit : 0 < maxIt) (fuel : Nat)
    (hf : 4 + 4 ^ 4 < fuel) (v : ℚ) (rng : Rng) :
    ∃ L st' rng', maxpFit (azpSearch o expf (pairwise metric) fuel squareAdj attr) metric (pairwise metric)
        squareAdj attr (fun i (_ : Fin q) => squareSpat i) (fun _ => 2) maxIt (.azp v) rng =
          .ok (2, some L, st', rng') ∧ SamePartition L squareLabels := by
  have hloop : ∀ v, squareAdj v v = false := by decide +kernel
  obtain ⟨p, L, st', rng', h1, -⟩ := c43_fit (q := q) o expf (pairwise_exact hsym h0) (pairwise_total metric)
    metric square_symm hloop attr (fun i _ => squareSpat i) (fun _ => 2) (fun _ _ => zero_le_one)
    (by
      classical
      intro v _
      have hsub : ({v, rowMate v} : Finset (Fin 4)) ⊆
          Finset.univ.filter fun u => SameIsland squareAdj v u := by
        intro x hx
        simp only [Finset.mem_insert, Finset.mem_singleton] at hx
        refine Finset.mem_filter.2 ⟨Finset.mem_univ _, ?_⟩
        rcases hx with rfl | rfl
        · exact .refl
        · exact .single (.inl (rowMate_adj v))
      have := Finset.card_le_card hsub
      rw [Finset.card_pair (rowMate_ne v).symm] at this
      simp only [squareSpat, Finset.sum_const, nsmul_eq_mul, mul_one]
      exact_mod_cast this) maxIt hit fuel hf (.azp v) rng
  obtain ⟨rfl, h2⟩ := square_result h hq ((c112_fit o expf hsym h0 square_symm hloop attr
    (fun i _ => squareSpat i) (fun _ => 2) hit hf (st := .azp v) trivial p L).1 ⟨rng, st', rng', h1⟩)
  exact ⟨L, st', rng', h1, h2⟩

/-- The columns of the tests. -/
def SquareQuota (quota : Quota 4) : Prop :=
  NumberOrArray quota ∧ ∃ cols, quota.cols = .ok cols ∧ cols ≠ [] ∧ ∀ c ∈ cols, c = (squareSpat, 2)

/-- C127 for the exact method for the max-p-regions problem, with any solver that works. -/
theorem c127_maxp_exact {m : Nat} {metric : Metric} {attr : Fin 4 → Row m}
    (h : SquareLike fun i j => metric m (attr i) (attr j)) {quota : Quota 4} (hq : SquareQuota quota)
    {s : Solver (OrderVar 4)} (hc : Correct s) :
    ∃ L : Labels 4, maxpExactFit squareAdj attr quota s metric = .ok L ∧ SamePartition L squareLabels := by
  obtain ⟨hq, cols, h1, h2, h3⟩ := hq
  have hmet : ∀ L : Labels 4, QuotaMet L quota ↔
      ∀ v, 2 ≤ (Finset.univ.filter fun u => L u = L v).card := by
    intro L
    rw [quotaMet_iff hq h1]
    constructor
    · intro h v
      obtain ⟨c, hc⟩ := List.exists_mem_of_ne_nil cols h2
      have := h c hc v
      rw [h3 c hc] at this
      simp only [squareSpat, Finset.sum_const, nsmul_eq_mul, mul_one] at this
      exact_mod_cast this
    · intro h c hc v
      rw [h3 c hc]
      simp only [squareSpat, Finset.sum_const, nsmul_eq_mul, mul_one]
      exact_mod_cast h v
  have hm0 : QuotaMet squareLabels quota := (hmet _).2 (by decide +kernel)
  obtain ⟨L, e1, e2, e3, e4⟩ := c57_fit square_symm hq ⟨cols, h1⟩ (fun i j _ => h.nonneg i j)
    ⟨0, 2, by decide, fun e => absurd ((h.zero_iff 0 2).1 e) (by decide)⟩ square_labels.1 hm0 hc
  obtain ⟨e5, e6⟩ := e4 _ square_labels.1 hm0
  have e7 := square_at_most ((hmet _).1 e3)
  rw [square_labels.2] at e5 e6
  have e8 : numRegions L = 2 := le_antisymm e7 e5
  have e9 := e6 e8.symm
  rw [c18_pairwise, c18_pairwise] at e9
  exact ⟨L, e1, square_unique h e8 e9⟩

/-- The three ways in which the tests give the columns and the threshold. -/
example : SquareQuota (.scalar squareSpat 2) ∧ SquareQuota (.rowsReal (column squareSpat) 2) ∧
    SquareQuota (.rowsArray (fun i (_ : Fin 2) => squareSpat i) [2, 2]) :=
  ⟨⟨trivial, _, rfl, by simp, by simp⟩, ⟨trivial, _, rfl, by simp [List.finRange], by simp [column]⟩,
    ⟨trivial, _, rfl, by simp [List.finRange], by simp⟩⟩

/-- The data of the tests of the exact method. -/
example : SquareLike (fun i j => manhattanM 1 (column squareAttr i) (column squareAttr j)) ∧
    SquareLike fun i j => manhattanM 2 (fun _ => squareAttr i) fun _ => squareAttr j :=
  ⟨squareLike_single, squareLike_double⟩

end Region.Props
