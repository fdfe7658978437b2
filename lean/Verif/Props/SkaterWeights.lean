import Verif.Lemmas.SkaterWeights
import Verif.Props.Skater
/-
Property theorems C123 and C124: the `W` object handed to `Spanning_Forest.fit`.
-/
namespace Region.Props

open Region Spec Skater

set_option synthInstance.maxSize 2000

section
variable (o : WeightOrder) (S : SpanningForest) {n : Nat} (fuel : Nat) (nClusters : Option Int)
  (data : Option (Σ m : Nat, Fin n → Row m)) (quorum : Option ℚ) (trace : Bool) (islands : String)

/-! ### C123 -/

/-- C123: the weights and the transformation of `W` play no role: what `fit` does is what it does for the
map on which the listed neighbors border each other, also those with the weight 0. -/
theorem c123_listed (w : WObj n) (border : Adj n)
    (hb : ∀ i j, border i j = true ↔ ∃ x, (j, x) ∈ w.weights.rows i) :
    (fitW o S fuel nClusters (fun d => .ok (S.metric.kernel d)) data quorum trace islands w).1 =
      fit o S fuel nClusters border data quorum trace islands := by
  have he : border = w.weights.stored := by
    funext i j
    rw [Bool.eq_iff_iff, hb, Csr.stored_iff]
    simp only [Csr.get?_eq_some]
  subst he
  cases data with
  | none => exact fitKernel_ones o S fuel nClusters quorum trace islands w.weights (fun _ _ => 1) _
  | some d => exact fitKernel_ones o S fuel nClusters quorum trace islands w.weights _ _

/-- C123: two `W` objects listing the same neighbors give the same outcome, for every metric. -/
theorem c123_weights (metric : {m : Nat} → (Fin n → Row m) → Res (Fin n → Fin n → ℚ)) (w w' : WObj n)
    (h : ∀ i j, (∃ x, (j, x) ∈ w.weights.rows i) ↔ ∃ x, (j, x) ∈ w'.weights.rows i) :
    (fitW o S fuel nClusters metric data quorum trace islands w).1 =
      (fitW o S fuel nClusters metric data quorum trace islands w').1 := by
  have he : w.weights.stored = w'.weights.stored := by
    funext i j
    rw [Bool.eq_iff_iff, Csr.stored_iff, Csr.stored_iff]
    simp only [Csr.get?_eq_some]
    exact h i j
  cases data with
  | none =>
    refine (fitKernel_ones o S fuel nClusters quorum trace islands w.weights (fun _ _ => 1) _).trans
      (Eq.trans ?_ (fitKernel_ones o S fuel nClusters quorum trace islands w'.weights (fun _ _ => 1) _).symm)
    rw [he]
  | some d =>
    have hrun : ∀ v : WObj n, (fitW o S fuel nClusters metric (some d) quorum trace islands v).1 =
        (metric d.2 >>= fun kernel =>
          fitKernel o S fuel nClusters v.weights.stored kernel d.2 quorum trace islands) := by
      intro v
      show (Py.bind (Py.lift (metric d.2)) _ v).1 = _
      unfold Py.bind Py.lift
      dsimp only
      cases metric d.2 with
      | ok kernel => exact fitKernel_ones o S fuel nClusters quorum trace islands v.weights kernel d.2
      | raise e => rfl
      | timeout => rfl
    rw [hrun, hrun, he]

/-! ### C124 -/

/-- C124 (only if the call ends before): `W` is left as it was when the metric raises. -/
theorem c124_unchanged_partial (metric : {m : Nat} → (Fin n → Row m) → Res (Fin n → Fin n → ℚ))
    {m : Nat} (d : Fin n → Row m) (e : Exc) (he : metric d = .raise e) (w : WObj n) :
    fitW o S fuel nClusters metric (some ⟨m, d⟩) quorum trace islands w = (.raise e, w) := by
  show Py.bind (Py.lift (metric d)) _ w = _
  unfold Py.bind Py.lift
  rw [he]

/-- C124, not in general: whatever the outcome, after a call whose metric returns, the caller's object `W`
is a binary one: every listed neighbor has the weight 1 and `transform` is `'B'`; nobody is listed who was
not, and nobody is lost. -/
theorem c124_changed (metric : {m : Nat} → (Fin n → Row m) → Res (Fin n → Fin n → ℚ))
    (hm : ∀ d, data = some d → ∃ k, metric d.2 = .ok k) (w : WObj n) :
    (fitW o S fuel nClusters metric data quorum trace islands w).2.transform = "B" ∧
    ∀ i j x, (j, x) ∈ (fitW o S fuel nClusters metric data quorum trace islands w).2.weights.rows i ↔
      x = 1 ∧ ∃ y, (j, y) ∈ w.weights.rows i := by
  have h : (fitW o S fuel nClusters metric data quorum trace islands w).2 = w.setBinary := by
    cases data with
    | none => rfl
    | some d =>
      obtain ⟨k, hk⟩ := hm d rfl
      show (Py.bind (Py.lift (metric d.2)) _ w).2 = _
      unfold Py.bind Py.lift
      rw [hk]
      rfl
  rw [h]
  refine ⟨rfl, fun i j x => ?_⟩
  simp only [WObj.setBinary, ones, List.mem_map, Prod.mk.injEq, Prod.exists]
  constructor
  · rintro ⟨a, b, h1, rfl, rfl⟩; exact ⟨rfl, b, h1⟩
  · rintro ⟨rfl, y, hy⟩; exact ⟨j, y, hy, rfl, rfl⟩

end

/-- Three areas in a row with the weights `a` and `b`. -/
def weighted3 (a b : ℚ) : Csr 3 where
  rows := ![[(1, a)], [(0, a), (2, b)], [(1, b)]]
  sorted := by
    have h : ∀ i : Fin 3, ((![[1], [0, 2], [1]] : Fin 3 → List (Fin 3)) i).Pairwise (· < ·) := by decide
    intro i
    match i with
    | 0 => exact h 0
    | 1 => exact h 1
    | 2 => exact h 2

example : ∀ i j, (∃ x, (j, x) ∈ (⟨weighted3 (1 / 2) 0, "O"⟩ : WObj 3).weights.rows i) ↔
    ∃ x, (j, x) ∈ (⟨weighted3 1 1, "B"⟩ : WObj 3).weights.rows i := by
  have h : ∀ A : Csr 3, ∀ i j, (∃ x, (j, x) ∈ A.rows i) ↔ A.stored i j = true := by
    intro A i j
    rw [Csr.stored_iff]
    simp only [Csr.get?_eq_some]
  intro i j
  rw [h, h]
  revert i j
  decide +kernel

/-- C124: a fit without data turns the weights 1/2 and 0 into 1, so that afterwards the areas 1 and 2 are
neighbors for `neighbors` (csgraph_utils.py 43-70) and hence for the other methods. -/
theorem c124_witness :
    ((⟨weighted3 (1 / 2) 0, "O"⟩ : WObj 3).weights.neighbors 1 = [0]) ∧
    ((fitW stableOrder SpanningForest.default 9 (some 2) (fun d => .ok (SpanningForest.default.metric.kernel d))
      none none false "increase" ⟨weighted3 (1 / 2) 0, "O"⟩).2.weights.neighbors 1 = [0, 2]) := by
  constructor <;> decide +kernel

end Region.Props
