import Verif.Lemmas.MaskDescent
import Verif.Lemmas.Published
/-
Steepest descents on the data of the tests of the p-regions methods.
-/
namespace Region

open Spec Relation Props

/-- Two areas can change the region. -/
def twoMoves (nb : List Nat) (n m : Nat) : Bool :=
  (List.range n).any fun a => canMove nb n m a &&
    (List.range n).any fun b => decide (a ≠ b) && canMove nb n m b

section
set_option maxRecDepth 10000

theorem duque_decides : MaskDecides duqueNb 9 := by
  unfold MaskDecides
  decide +kernel

/-- Every clustering with area 0 in the first region: steepest descent takes at most five steps and never
wants to take back a move, and two areas can move. -/
theorem duque_guarded : (List.range (2 ^ 9)).all (fun m => !m.testBit 0 || (isBroken duqueNb 9 m ||
    (isBroken duqueNb 9 (restOf 9 m) ||
      (guarded duqueNb duqueGap 9 5 m 0 && twoMoves duqueNb 9 m)))) = true := by
  decide +kernel

end

section
variable {d : Fin 9 → Fin 9 → ℚ} {c : ℚ}

theorem DuqueLike.map (h : DuqueLike d c) : MaskMap duqueAdj d duqueNb duqueGap (c / 10) where
  symm := duque_symm
  mask := duque_mask
  decides := duque_decides
  dsymm := h.symm
  dzero := h.zero
  pos := div_pos h.1 (by norm_num)
  gap := h.gap

theorem duque_start {L : Labels 9} (hL : Feasible duqueAdj L 2) : ∃ m x y, TwoReg L m x y ∧
    guarded duqueNb duqueGap 9 5 m 0 = true ∧ twoMoves duqueNb 9 m = true := by
  obtain ⟨m, x, y, hm, h0⟩ := exists_twoReg_with hL.2 0
  obtain ⟨h1, h2⟩ := hm.whole duque_symm duque_mask hL
  have h3 := List.all_eq_true.1 duque_guarded m (List.mem_range.2 hm.lt)
  have h0' : m.testBit 0 = true := h0
  rw [h1, h2, h0'] at h3
  simp only [Bool.not_true, Bool.false_or, Bool.and_eq_true] at h3
  exact ⟨m, x, y, hm, h3.1, h3.2⟩

/-- Two areas can always move. -/
theorem duque_moves {L : Labels 9} (hL : Feasible duqueAdj L 2) :
    ∃ a b r s, a ≠ b ∧ Admissible duqueAdj L a r ∧ Admissible duqueAdj L b s := by
  obtain ⟨m, x, y, hm, -, h⟩ := duque_start hL
  unfold twoMoves at h
  simp only [List.any_eq_true, List.mem_range, Bool.and_eq_true, decide_eq_true_eq] at h
  obtain ⟨a, ha, h1, b, hb, hab, h2⟩ := h
  obtain ⟨r, hr⟩ := hm.target ⟨a, ha⟩
  obtain ⟨s, hs⟩ := hm.target ⟨b, hb⟩
  refine ⟨⟨a, ha⟩, ⟨b, hb⟩, r, s, by simpa using hab, ?_, ?_⟩
  · exact (hm.admissible_iff duque_symm duque_mask duque_decides _ _).2 ⟨hr, h1⟩
  · exact (hm.admissible_iff duque_symm duque_mask duque_decides _ _).2 ⟨hs, h2⟩

theorem feasible_descent {n p : Nat} {adj : Adj n} {f : Labels n → ℚ} {j : Nat} {L L' : Labels n}
    (hL : Feasible adj L p) (h : Descent adj f j L L') : Feasible adj L' p := by
  induction h with
  | start => exact hL
  | step _ hst ih =>
    obtain ⟨-, ⟨a, r, ha, rfl⟩, -⟩ := hst
    exact moved_feasible (ih hL) ha

/-- A descent takes at most five steps. -/
theorem duque_steps (h : DuqueLike d c) {L L' : Labels 9} (hL : Feasible duqueAdj L 2) {j : Nat}
    (hd : Descent duqueAdj (fun L => withinPairs L d) j L L') : j ≤ 5 := by
  obtain ⟨m, x, y, hm, hg, -⟩ := duque_start hL
  obtain ⟨-, -, hj, -⟩ := hm.descent_guarded h.map hg hd
  exact hj

end

end Region
