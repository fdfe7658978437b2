import Verif.Props.Columns
import Verif.Props.TabuCenter
import Verif.Lemmas.ReactEnds
import Mathlib.Data.Rat.Floor
/-
Property theorems C137: the tabu searches when the dissimilarities are rounded.
-/
namespace Region.Props

open Region Spec

/-- C137, reactive tabu search: it comes to an end for every objective, so also if its values are rounded in
any way, for all settings, objects and draws. -/
theorem c137_reactive {n q : Nat} {ρ : Type} (o : MstOrder) (expf : ℚ → ℚ) (obj : Objective ρ) (maxIt : Nat)
    (k1 k2 : Int) (adj : Adj n) (attr : Fin n → ρ) (p : Int) (initial : Option (Labels n))
    (self : ReactSelf (Strat n q)) (rng : Rng) :
    reactiveTabuFit o expf obj maxIt k1 k2 adj attr p initial self rng ≠ .timeout := by
  have := reactiveTabuFit_ends o expf obj maxIt k1 k2 adj attr p initial self rng
  intro h
  rw [h] at this
  exact this.elim

/-- Distances rounded down to a whole number. -/
def roundedDown {m : Nat} (x y : Row m) : ℚ := ⌊manhattan x y⌋

theorem roundedDown_dissimilarity {m : Nat} : Dissimilarity (roundedDown (m := m)) := by
  have h := manhattan_dissimilarity (m := m)
  refine ⟨fun x y => ?_, fun x y => ?_, fun x => ?_⟩
  · unfold roundedDown
    exact_mod_cast Int.floor_nonneg.2 (h.nonneg x y)
  · unfold roundedDown; rw [h.symm]
  · unfold roundedDown; rw [h.zero]; simp

/-- Attributes without ties that are equal up to the precision of `roundedDown`. -/
def close4 : Fin 4 → Row 1 := column ![0, 1/16, 3/16, 7/16]

theorem close4_tieFree : TieFree fun i j => manhattan (close4 i) (close4 j) := by
  unfold TieFree
  decide +kernel

/-- C137 is false for the basic tabu search: rounding makes ties.  The four areas of the star have no ties,
and with exact numbers the search returns (for every tabu length, termination parameter and draws); with
distances rounded down it never does. -/
theorem c137_basic_endless (o : MstOrder) (len : Option Nat) (reps : Int) (fuel : Nat) (v : ℚ)
    (rng : Rng) :
    (4 ^ 4 * (reps.toNat + 1) < fuel → ∃ out, basicTabuFit (q := 0) o (fun _ => 0) (pairwise manhattan) fuel
      len reps star4 close4 3 (some ![0, 0, 1, 2]) (.azp v) rng = .ok out) ∧
    basicTabuFit (q := 0) o (fun _ => 0) (pairwise roundedDown) fuel len reps star4 close4 3
      (some ![0, 0, 1, 2]) (.azp v) rng = .timeout := by
  obtain ⟨hf, -⟩ := c36_not_terminating len reps fuel v rng
  have hcon : Connected star4 := (nComponents_eq_one_iff _).1 (by decide +kernel)
  have hm : ∀ i : Fin 4, (![0, 0, 1, 2] : Labels 4) i ≠ -1 := by decide
  constructor
  · intro hfuel
    exact c36_terminates_partial o _ manhattan_dissimilarity close4 close4_tieFree 3 (some ![0, 0, 1, 2])
      ⟨hf.1, by exact_mod_cast hf.2, fun v => ⟨v, .refl, hm v⟩⟩ len reps fuel hfuel v rng
  · have hu : OtherUnits 1 manhattan roundedDown (column fun _ : Fin 4 => 0) close4 :=
      ⟨one_pos, by decide +kernel⟩
    have h1 := c88_basic_tabu (q := 0) hu o (fun _ => 0) fuel len reps star4 3 (some ![0, 0, 1, 2])
      (.azp v) rng
    rw [inUnits_one, basicFit_connected o _ _ fuel len reps hcon (column fun _ => 0) hf.1
      (by exact_mod_cast hf.2) hm] at h1
    have h2 := (c36_not_terminating len reps fuel
      ((pairwise manhattan).call (![0, 0, 1, 2] : Labels 4) (column fun _ => 0)) rng).2
    change labelsOf _ = labelsOf (basicComponent _ _ _ _ _ _ _ _ (Strat.azp _) _) at h1
    rw [h2] at h1
    generalize basicTabuFit o _ _ fuel len reps star4 close4 3 (some ![0, 0, 1, 2]) (.azp v) rng = x at h1 ⊢
    cases x with
    | ok y => cases h1
    | raise e => cases h1
    | timeout => rfl

end Region.Props
