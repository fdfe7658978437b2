import Verif.Lemmas.Renumber
import Verif.Lemmas.AzpExactFit
/-
The islands of a map as maps of their own.
-/
namespace Region

open Spec

theorem dissimilarity_comp {V W : Type} (e : V ≃ W) (d : W → W → ℚ) (L : W → Int) :
    dissimilarity (fun a b => d (e a) (e b)) (L ∘ e) = dissimilarity d L := by
  unfold dissimilarity
  rw [← finsum_comp_equiv (Equiv.prodCongr e e)]
  simp

theorem dissimilarity_fin {k : Nat} {d : Fin k → Fin k → ℚ} (hd : ∀ a b, d a b = d b a) (L : Labels k) :
    dissimilarity d L = 2 * withinPairs L d := by
  unfold dissimilarity
  rw [finsum_eq_sum_of_fintype]
  have h1 : ∀ p : Fin k × Fin k, (∑ᶠ (_ : p.1 ≠ p.2 ∧ L p.1 = L p.2), d p.1 p.2) =
      (if p.1 < p.2 ∧ L p.1 = L p.2 then d p.1 p.2 else 0) +
        (if p.2 < p.1 ∧ L p.2 = L p.1 then d p.2 p.1 else 0) := by
    intro p
    classical
    rw [finsum_eq_if]
    rcases lt_trichotomy p.1 p.2 with h | h | h
    · simp [h, h.ne, not_lt.2 h.le]
    · simp [h]
    · simp [h, h.ne', not_lt.2 h.le, hd p.1 p.2, eq_comm]
  simp_rw [h1]
  rw [Finset.sum_add_distrib, withinPairs, Finset.sum_filter, two_mul]
  congr 1
  exact Fintype.sum_equiv (Equiv.prodComm _ _) _ _ fun p => rfl

section
variable {n : Nat} (adj : Adj n) (init : Labels n)

theorem mem_shown_island (hm : ∀ v, init v ≠ -1) (u v : Fin n) :
    v ∈ shown (compArray adj init (compLabels adj u)) ↔ SameIsland adj u v := by
  rw [mem_shown, compArray_ne, compLabels_eq_iff]
  exact ⟨fun h => sameIsland_symm h.1, fun h => ⟨sameIsland_symm h, hm v⟩⟩

/-- The areas of the island of `u` in the order in which `fit` presents them. -/
noncomputable def islandEquiv (hm : ∀ v, init v ≠ -1) (u : Fin n) :
    Fin (shown (compArray adj init (compLabels adj u))).length ≃ Island adj u :=
  Equiv.ofBijective
    (fun i => ⟨(shown (compArray adj init (compLabels adj u))).get i,
      (mem_shown_island adj init hm u _).1 (List.get_mem _ _)⟩) (by
    constructor
    · intro i j h
      exact (shown_nodup _).injective_get (Subtype.ext_iff.1 h)
    · rintro ⟨v, hv⟩
      obtain ⟨i, hi⟩ := List.get_of_mem ((mem_shown_island adj init hm u v).2 hv)
      exact ⟨i, Subtype.ext hi⟩)

theorem islandEquiv_apply (hm : ∀ v, init v ≠ -1) (u : Fin n)
    (i : Fin (shown (compArray adj init (compLabels adj u))).length) :
    ((islandEquiv adj init hm u i : Island adj u) : Fin n) =
      (shown (compArray adj init (compLabels adj u))).get i := rfl

end

end Region
