import Verif.Model.Elements
import Mathlib.Order.Basic
import Mathlib.Tactic.Linarith
/- C110: when `all_elements_equal` says that the entries of an array are equal. -/
namespace Region.Props

theorem foldl_max (xs : List ℚ) (x : ℚ) :
    let m := xs.foldl (fun best y => if decide (best < y) then y else best) x
    m ∈ x :: xs ∧ ∀ y ∈ x :: xs, y ≤ m := by
  induction xs generalizing x with
  | nil => simp
  | cons y ys ih =>
    simp only [List.foldl_cons]
    by_cases h : x < y
    · obtain ⟨h1, h2⟩ := ih y
      simp only [h, decide_true, if_true]
      refine ⟨List.mem_cons_of_mem _ h1, fun z hz => ?_⟩
      rcases List.mem_cons.1 hz with rfl | hz
      · exact h.le.trans (h2 y List.mem_cons_self)
      · exact h2 z hz
    · obtain ⟨h1, h2⟩ := ih x
      simp only [h, decide_false, Bool.false_eq_true, if_false]
      refine ⟨?_, fun z hz => ?_⟩
      · rcases List.mem_cons.1 h1 with h1 | h1
        · rw [h1]; exact List.mem_cons_self
        · exact List.mem_cons_of_mem _ (List.mem_cons_of_mem _ h1)
      · rcases List.mem_cons.1 hz with rfl | hz
        · exact h2 z List.mem_cons_self
        rcases List.mem_cons.1 hz with rfl | hz
        · exact (not_lt.1 h).trans (h2 x List.mem_cons_self)
        · exact h2 z (List.mem_cons_of_mem _ hz)

theorem foldl_min (xs : List ℚ) (x : ℚ) :
    let m := xs.foldl (fun best y => if decide (y < best) then y else best) x
    m ∈ x :: xs ∧ ∀ y ∈ x :: xs, m ≤ y := by
  induction xs generalizing x with
  | nil => simp
  | cons y ys ih =>
    simp only [List.foldl_cons]
    by_cases h : y < x
    · obtain ⟨h1, h2⟩ := ih y
      simp only [h, decide_true, if_true]
      refine ⟨List.mem_cons_of_mem _ h1, fun z hz => ?_⟩
      rcases List.mem_cons.1 hz with rfl | hz
      · exact (h2 y List.mem_cons_self).trans h.le
      · exact h2 z hz
    · obtain ⟨h1, h2⟩ := ih x
      simp only [h, decide_false, Bool.false_eq_true, if_false]
      refine ⟨?_, fun z hz => ?_⟩
      · rcases List.mem_cons.1 h1 with h1 | h1
        · rw [h1]; exact List.mem_cons_self
        · exact List.mem_cons_of_mem _ (List.mem_cons_of_mem _ h1)
      · rcases List.mem_cons.1 hz with rfl | hz
        · exact h2 z List.mem_cons_self
        rcases List.mem_cons.1 hz with rfl | hz
        · exact (h2 x List.mem_cons_self).trans (not_lt.1 h)
        · exact h2 z (List.mem_cons_of_mem _ hz)

/-- C110: for an array with entries `all_elements_equal` answers whether any two of them are equal. -/
theorem c110_equal (array : List ℚ) (h : array ≠ []) :
    ∃ b, allElementsEqual array = .ok b ∧ (b = true ↔ ∀ x ∈ array, ∀ y ∈ array, x = y) := by
  obtain ⟨x, xs, rfl⟩ := List.exists_cons_of_ne_nil h
  obtain ⟨hi, hi'⟩ := foldl_max xs x
  obtain ⟨lo, lo'⟩ := foldl_min xs x
  refine ⟨_, rfl, ?_⟩
  rw [decide_eq_true_iff]
  constructor
  · intro e y hy z hz
    have := hi' y hy; have := hi' z hz; have := lo' y hy; have := lo' z hz
    linarith
  · intro e
    exact e _ hi _ lo

example : allElementsEqual [2, 2, 2] = .ok true ∧ allElementsEqual [2, 3, 2] = .ok false := by
  decide +kernel

/-- C110: for an empty array, all of whose entries are equal, it raises a `ValueError`. -/
theorem c110_empty : allElementsEqual [] =
    .raise (.valueError "zero-size array to reduction operation maximum which has no identity") := by
  decide +kernel

end Region.Props
