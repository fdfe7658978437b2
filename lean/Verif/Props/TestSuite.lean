import Mathlib.Data.Fin.VecNotation
import Verif.Lemmas.TestSuite
import Verif.Model.Azp
import Verif.Model.Sparse
/-
Property theorem C129: the tests of the helper functions.
-/
namespace Region.Props

open Region

/-! ### C129 -/

/-- The tape beginning with the draws `d`. -/
def tapeOf {k m : Nat} (d : Fin k → Fin m) : Rng := fun i => if h : i < k then (d ⟨i, h⟩).val else 0

/-- C129: `test_random_element_from` returns or fails its last assertion; it returns iff two of the draws differ.
The same draws decide `test_pop_randomly_from`. -/
theorem c129_draws {m : Nat} (hm : 0 < m) (k : Nat) (r : Rng) :
    (testRandomElementFrom m k r = .ok () ↔ ∃ i < k, r i % m ≠ r 0 % m) ∧
    (testRandomElementFrom m k r = .raise .assertionError ↔ ∀ i < k, r i % m = r 0 % m) ∧
    testPopRandomlyFrom m k r = testRandomElementFrom m k r := by
  have h1 : testRandomElementFrom m k r =
      if testNotAllElementsEqual (drawn m r k) then .ok () else .raise .assertionError := by
    simp [testRandomElementFrom, testRandomElementLoop_eq hm]
  have h2 : testPopRandomlyFrom m k r =
      if testNotAllElementsEqual (drawn m r k) then .ok () else .raise .assertionError := by
    simp [testPopRandomlyFrom, testPopRandomlyLoop_eq hm]
  have h3 := testNotAllElementsEqual_iff m r k
  rw [h2, h1]
  by_cases h : testNotAllElementsEqual (drawn m r k) = true
  · simp only [h, if_true, true_iff, reduceCtorEq, false_iff, and_true]
    refine ⟨h3.1 h, fun h' => ?_⟩
    obtain ⟨i, hi, hne⟩ := h3.1 h
    exact hne (h' i hi)
  · simp only [h, if_false, true_iff, reduceCtorEq, false_iff, and_true, Bool.false_eq_true]
    exact ⟨fun h' => h (h3.2 h'), fun i hi => by_contra fun hne => h (h3.2 ⟨i, hi, hne⟩)⟩

/-- C129: of the `m ^ k` sequences of draws the two tests fail for exactly `m`. -/
theorem c129_failing {m k : Nat} (hm : 0 < m) (hk : 0 < k) :
    (Finset.univ.filter fun d : Fin k → Fin m => testRandomElementFrom m k (tapeOf d) ≠ .ok ()).card = m ∧
    (Finset.univ.filter fun d : Fin k → Fin m => testPopRandomlyFrom m k (tapeOf d) ≠ .ok ()).card = m ∧
    Fintype.card (Fin k → Fin m) = m ^ k := by
  have hset : (Finset.univ.filter fun d : Fin k → Fin m => testRandomElementFrom m k (tapeOf d) ≠ .ok ()) =
      Finset.univ.filter fun d : Fin k → Fin m => ∀ i, d i = d ⟨0, hk⟩ := by
    refine Finset.filter_congr fun d _ => ?_
    rw [ne_eq, (c129_draws hm k (tapeOf d)).1]
    push Not
    have key : ∀ i : Fin k, tapeOf d i % m = (d i).val := fun i => by
      simp [tapeOf, Nat.mod_eq_of_lt (d i).isLt]
    have h0 : tapeOf d 0 % m = (d ⟨0, hk⟩).val := key ⟨0, hk⟩
    constructor
    · intro h i
      have := h i i.isLt
      rw [key, h0] at this
      exact Fin.ext this
    · intro h i hi
      rw [key ⟨i, hi⟩, h0, h ⟨i, hi⟩]
  have hset' : (Finset.univ.filter fun d : Fin k → Fin m => testPopRandomlyFrom m k (tapeOf d) ≠ .ok ()) =
      Finset.univ.filter fun d : Fin k → Fin m => testRandomElementFrom m k (tapeOf d) ≠ .ok () :=
    Finset.filter_congr fun d _ => by rw [(c129_draws hm k (tapeOf d)).2.2]
  rw [hset', hset, card_constant hk]
  exact ⟨rfl, rfl, by simp⟩

/-- The tests as they are: 1000 of the `10 ^ 15` sequences of draws fail. -/
example : (Finset.univ.filter fun d : Fin 5 → Fin 1000 =>
    testPopRandomlyFrom 1000 5 (tapeOf d) ≠ .ok ()).card = 1000 :=
  (c129_failing (by omega) (by omega)).2.1

example : testPopRandomlyFrom 1000 5 (fun _ => 0) = .raise .assertionError :=
  (c129_draws (by omega) 5 _).2.2.trans ((c129_draws (by omega) 5 _).2.1.2 fun _ _ => rfl)

example : testRandomElementFrom 1000 5 (fun i => i) = .ok () :=
  (c129_draws (by omega) 5 _).1.2 ⟨1, by omega, by decide⟩

/-- C129: the tests of `assert_feasible`, on the stored matrix. -/
theorem c129_feasible :
    assertFeasible (![0, 1] : Labels 2) (fun _ _ => false) none = .ok () ∧
    assertFeasible (![0, 1] : Labels 2) (fun _ _ => false) (some 2) = .ok () ∧
    assertFeasible (![0, 0] : Labels 2) (fun i j => i != j) none = .ok () ∧
    assertFeasible (![0, 0] : Labels 2) (fun i j => i != j) (some 1) = .ok () ∧
    assertFeasible (![0, 1] : Labels 2) (fun i j => i != j) none = .ok () ∧
    assertFeasible (![0, 1] : Labels 2) (fun i j => i != j) (some 2) = .ok () ∧
    assertFeasible (![0, 0] : Labels 2) (fun _ _ => false) none =
      .raise (.valueError "Region 0 is not spatially contiguous.") ∧
    assertFeasible (![0, 0] : Labels 2) (fun i j => i != j) (some 2) =
      .raise (.valueError "The number of regions is 2 but should be 2") := by
  decide +kernel

/-- C129: on one area `AZP._azp_connected_component` returns the labels it is given, whatever the label, the
strategy and the random draws, and draws nothing. -/
theorem c129_one_area {σ : Type} (ops : StratOps σ 1) (adj : Adj 1) (fuel : Nat) (init : Labels 1)
    (strat : σ) (r : Rng) : azpComponent ops adj fuel init strat r = .ok (init, strat, r) := by
  have : uniqueSorted (arrayList init) = [init 0] := by
    simp [arrayList, uniqueSorted, List.finRange_succ, insertUniq]
  unfold azpComponent
  simp [this]

end Region.Props
