import Mathlib.Data.Fin.VecNotation
import Verif.Lemmas.Objective
/-
Property theorems C18-C20: the objective functions.
-/
namespace Region.Props

open Region Spec

/-! ### C18 -/

/-- C18: the pairwise objective is the sum of the dissimilarities of all unordered pairs of distinct
areas in the same region. -/
theorem c18_pairwise {ρ : Type} (metric : ρ → ρ → ℚ) {k : Nat} (labels : Labels k)
    (attr : Fin k → ρ) :
    (pairwise metric).call labels attr =
      withinPairs labels fun i j => metric (attr i) (attr j) :=
  pairwiseCall_eq metric labels attr

/-- C18: it does not depend on the names of the regions. -/
theorem c18_renaming {ρ : Type} (metric : ρ → ρ → ℚ) {k : Nat} (labels labels' : Labels k)
    (attr : Fin k → ρ) (h : ∀ i j, labels i = labels j ↔ labels' i = labels' j) :
    (pairwise metric).call labels attr = (pairwise metric).call labels' attr := by
  rw [c18_pairwise, c18_pairwise]
  unfold withinPairs
  simp_rw [h]

/-- The attribute values 0, 1, 2, … as rows of length one. -/
def ramp (k : Nat) : Fin k → Row 1 := fun i _ => (i.val : ℚ)
/-- One attribute per area. -/
def column {k : Nat} (v : Fin k → ℚ) : Fin k → Row 1 := fun i _ => v i

example : (pairwise manhattan).call ![0, 0, 0, 0, 1, 1] (ramp 6) = 11 := by decide +kernel

/-! ### C19 -/

/-- C19: for a symmetric metric vanishing on the diagonal, `update` is the exact change of the
objective. -/
theorem c19_update_exact {ρ : Type} (metric : ρ → ρ → ℚ) (hs : ∀ x y, metric x y = metric y x)
    (h0 : ∀ x, metric x x = 0) {k : Nat} (a : Fin k) (r : Int) (labels : Labels k)
    (attr : Fin k → ρ) (hr : ∃ i, labels i = r) :
    (pairwise metric).update a r labels attr =
      some ((pairwise metric).call (moved labels a r) attr -
        (pairwise metric).call labels attr) := by
  change pairwiseUpdate metric a r labels attr = _
  rw [pairwiseUpdate_eq, if_pos hr, c18_pairwise, c18_pairwise,
    withinPairs_moved labels _ (fun _ _ => hs _ _) (fun _ => h0 _)]
  congr 1
  ring

/-- C19: a target region without areas makes the metric raise `ValueError` (modelled as `none`). -/
theorem c19_update_empty_target {ρ : Type} (metric : ρ → ρ → ℚ) {k : Nat} (a : Fin k) (r : Int)
    (labels : Labels k) (attr : Fin k → ρ) (hr : ∀ i, labels i ≠ r) :
    (pairwise metric).update a r labels attr = none := by
  change pairwiseUpdate metric a r labels attr = _
  rw [pairwiseUpdate_eq, if_neg (by push Not; exact hr)]

/-- The manhattan distance meets the conditions of C19. -/
theorem manhattan_comm {m : Nat} (x y : Row m) : manhattan x y = manhattan y x := by
  unfold manhattan
  congr 1
  apply List.map_congr_left
  intro i _
  exact abs_sub_comm _ _

theorem manhattan_self {m : Nat} (x : Row m) : manhattan x x = 0 := by
  unfold manhattan
  simp

example : (pairwise manhattan).update 3 1 ![0, 0, 0, 0, 1, 1] (ramp 6) = some (-3) ∧
    (∃ i, (![0, 0, 0, 0, 1, 1] : Labels 6) i = 1) := by
  decide +kernel

/-- C19 needs the zero diagonal: with the constant metric 1 the update is off by one. -/
theorem c19_needs_zero_diagonal :
    (pairwise (fun _ _ : Row 1 => (1 : ℚ))).update 1 1 ![0, 0, 1] (ramp 3) = some (-1) ∧
    (pairwise (fun _ _ : Row 1 => (1 : ℚ))).call (moved ![0, 0, 1] 1 1) (ramp 3) -
      (pairwise (fun _ _ : Row 1 => (1 : ℚ))).call ![0, 0, 1] (ramp 3) = 0 := by
  decide +kernel

/-! ### C20 -/

/-- C20 (part): with `reduction = sum`, `update` is the exact change of the objective, for any metric
and center.  What is missing: other reductions (see `c20_max_not_exact`). -/
theorem c20_update_exact_partial {ρ : Type} (metric : ρ → ρ → ℚ) (center : List ρ → ρ)
    {k : Nat} (a : Fin k) (r : Int) (labels : Labels k) (attr : Fin k → ρ)
    (hr : ∃ i, labels i = r) (ha : ∃ i, i ≠ a ∧ labels i = labels a) :
    (centered metric center List.sum).update a r labels attr =
      some ((centered metric center List.sum).call (moved labels a r) attr -
        (centered metric center List.sum).call labels attr) := by
  obtain ⟨v, hv⟩ := centered_total metric center List.sum a r labels attr hr ha
  rw [hv, centered_sum_exact metric center a r labels attr v hv]
  congr 1
  ring

/-- C20: with `reduction = sum` the objective is the sum over the regions of the distances of the
region's areas from the region's center. -/
theorem c20_call_sum {ρ : Type} (metric : ρ → ρ → ℚ) (center : List ρ → ρ) {k : Nat}
    (labels : Labels k) (attr : Fin k → ρ) :
    (centered metric center List.sum).call labels attr =
      ∑ i, metric (attr i)
        (center (((List.finRange k).filter fun j => labels j = labels i).map attr)) := by
  change centerCall metric center List.sum labels attr = _
  rw [centerCall_sum, ← Finset.sum_fiberwise_of_maps_to (t := Finset.univ.image labels)
    (g := labels) (by intro p _; simp)]
  apply Finset.sum_congr rfl
  intro r hr
  obtain ⟨i, _, hi⟩ := Finset.mem_image.1 hr
  have hne : whereEq labels r ≠ [] := by rw [Ne, whereEq_eq_nil]; push Not; exact ⟨i, hi⟩
  unfold intraregional
  dsimp only
  rw [if_neg (by simpa using hne), Option.getD_some, List.map_map, sum_map_whereEq]
  apply Finset.sum_congr rfl
  intro j hj
  rw [(Finset.mem_filter.1 hj).2]
  rfl

/-- C20: for every reduction, `labels` is unchanged after an `update` that returns. -/
theorem c20_labels_restored {ρ : Type} (metric : ρ → ρ → ℚ) (center : List ρ → ρ)
    (reduction : List ℚ → ℚ) {k : Nat} (a : Fin k) (r : Int) (labels : Labels k)
    (attr : Fin k → ρ) (v : ℚ)
    (h : (centerUpdate metric center reduction a r labels attr).1 = some v) :
    (centerUpdate metric center reduction a r labels attr).2 = labels :=
  centerUpdate_labels metric center reduction h

/-- C20: moving the only area of a region raises, and then `labels` is left modified. -/
theorem c20_labels_not_restored_on_error :
    (centerUpdate manhattan meanRow List.sum 0 1 ![0, 1, 1] (ramp 3)).1 = none ∧
    (centerUpdate manhattan meanRow List.sum 0 1 ![0, 1, 1] (ramp 3)).2 0 = 1 := by
  decide +kernel

/-- C20 fails for `reduction = max`: here the two regions concerned contribute a change of -4,
but a third region keeps the objective where it was. -/
theorem c20_max_not_exact :
    (centered manhattan meanRow listMax).update 1 1 ![0, 0, 1, 2, 2]
        (column ![0, 8, 8, 0, 100]) = some (-4) ∧
    (centered manhattan meanRow listMax).call (moved ![0, 0, 1, 2, 2] 1 1)
        (column ![0, 8, 8, 0, 100]) -
      (centered manhattan meanRow listMax).call ![0, 0, 1, 2, 2]
        (column ![0, 8, 8, 0, 100]) = 0 := by
  decide +kernel

example : (centered manhattan meanRow List.sum).update 2 1 ![0, 0, 0, 1, 1] (ramp 5) =
    some 0 := by decide +kernel

end Region.Props
