import Mathlib.Data.Fintype.Pigeonhole
import Mathlib.Order.Interval.Finset.Nat
import Mathlib.Data.Int.Basic
import Mathlib.Algebra.Order.BigOperators.Group.Finset
import Verif.Spec
/-
Splitting regions: a region of several areas can be divided into two contiguous ones.
-/
namespace Region

open Spec Relation Finset

/-- A contiguous set with two areas `v ≠ a` falls into two contiguous parts: the areas reachable from
`a` without crossing `v`, and the rest. -/
theorem exists_split {V : Type} {adj : V → V → Bool} {S : Set V} (hS : Contiguous adj S) {v a : V}
    (hv : v ∈ S) (ha : a ∈ S) (hne : a ≠ v) :
    ∃ C : Set V, C ⊆ S ∧ a ∈ C ∧ v ∉ C ∧ Contiguous adj C ∧ Contiguous adj (S \ C) := by
  have hsymm : ∀ x y, Borders adj x y → Borders adj y x := fun x y h => h.symm
  let T : Set V := S \ {v}
  let C : Set V := {x | x ∈ T ∧ PathIn adj T a x}
  have haT : a ∈ T := ⟨ha, hne⟩
  have hstep : ∀ x y, StepIn adj T x y → StepIn adj T y x := fun x y h => ⟨h.2.1, h.1, hsymm _ _ h.2.2⟩
  have hin : ∀ x, PathIn adj T a x → PathIn adj C a x := by
    intro x hx
    induction hx with
    | refl => exact .refl
    | tail h1 h2 ih => exact ih.tail ⟨⟨h2.1, h1⟩, ⟨h2.2.1, h1.tail h2⟩, h2.2.2⟩
  have hsymC : ∀ x y, PathIn adj C x y → PathIn adj C y x := by
    intro x y h
    induction h with
    | refl => exact .refl
    | tail _ h2 ih => exact .head ⟨h2.2.1, h2.1, hsymm _ _ h2.2.2⟩ ih
  have hvC : v ∉ C := fun h => h.1.2 rfl
  refine ⟨C, fun x hx => hx.1.1, ⟨haT, .refl⟩, hvC, ⟨⟨a, haT, .refl⟩, ?_⟩, ⟨v, hv, hvC⟩, ?_⟩
  · intro x hx y hy
    exact (hsymC _ _ (hin x hx.2)).trans (hin y hy.2)
  · have hto : ∀ x, PathIn adj S x v → x ∈ S \ C → PathIn adj (S \ C) x v := by
      intro x hx
      induction hx using ReflTransGen.head_induction_on with
      | refl => intro _; exact .refl
      | @head x y h1 _ ih =>
        intro hxC
        by_cases hyC : y ∈ C
        · by_cases hxv : x = v
          · subst hxv; exact .refl
          · exact absurd ⟨⟨hxC.1, hxv⟩, hyC.2.tail ⟨hyC.1, ⟨hxC.1, hxv⟩, hsymm _ _ h1.2.2⟩⟩ hxC.2
        · exact .head ⟨hxC, ⟨h1.2.1, hyC⟩, h1.2.2⟩ (ih ⟨h1.2.1, hyC⟩)
    have hsymS : ∀ x y, PathIn adj (S \ C) x y → PathIn adj (S \ C) y x := by
      intro x y h
      induction h with
      | refl => exact .refl
      | tail _ h2 ih => exact .head ⟨h2.2.1, h2.1, hsymm _ _ h2.2.2⟩ ih
    intro x hx y hy
    exact (hto x (hS.2 x hx.1 v hv) hx).trans (hsymS _ _ (hto y (hS.2 y hy.1 v hv) hy))

/-- A clustering into fewer contiguous regions than areas can be refined by splitting one region. -/
theorem exists_refinement {n p : Nat} {adj : Fin n → Fin n → Bool} {L : Fin n → Int}
    (hL : Feasible adj L p) (hp : p < n) :
    ∃ L' : Fin n → Int, Feasible adj L' (p + 1) ∧ SplitsOne L' L := by
  classical
  obtain ⟨v, -, a, -, hva, hlab⟩ := exists_ne_map_eq_of_card_lt_of_maps_to
    (s := (univ : Finset (Fin n))) (t := univ.image L) (f := L)
    (by have := hL.2; unfold numRegions at this; rw [this]; simpa using hp)
    (fun x _ => mem_image_of_mem _ (mem_univ _))
  obtain ⟨C, hCS, haC, hvC, hC, hSC⟩ := exists_split (hL.1 v) (v := v) (a := a) rfl hlab.symm hva.symm
  obtain ⟨f, hf⟩ := Infinite.exists_notMem_finset (univ.image L)
  have hf' : ∀ x, L x ≠ f := fun x h => hf (h ▸ mem_image_of_mem _ (mem_univ _))
  let L' : Fin n → Int := fun x => if x ∈ C then f else L x
  have hin : ∀ x, x ∈ C → L' x = f := fun x h => if_pos h
  have hout : ∀ x, x ∉ C → L' x = L x := fun x h => if_neg h
  have hCL : ∀ x ∈ C, L x = L v := fun x hx => hCS hx
  refine ⟨L', ⟨fun u => ?_, ?_⟩, ?_, v, a, hlab, ?_, ?_, ?_⟩
  · by_cases hu : u ∈ C
    · have : regionOf L' (L' u) = C := by
        ext x
        simp only [regionOf, Set.mem_ofPred_eq, hin u hu]
        by_cases hx : x ∈ C
        · simp [hin x hx, hx]
        · simp [hout x hx, hx, hf']
      rw [this]; exact hC
    · by_cases hlu : L u = L v
      · have : regionOf L' (L' u) = regionOf L (L v) \ C := by
          ext x
          simp only [regionOf, Set.mem_ofPred_eq, hout u hu, Set.mem_sdiff, hlu]
          by_cases hx : x ∈ C
          · simp [hin x hx, hx, (hf' v).symm]
          · simp [hout x hx, hx]
        rw [this]; exact hSC
      · have : regionOf L' (L' u) = regionOf L (L u) := by
          ext x
          simp only [regionOf, Set.mem_ofPred_eq, hout u hu]
          by_cases hx : x ∈ C
          · simp only [hin x hx, (hf' u).symm, hCL x hx, false_iff]; exact Ne.symm hlu
          · simp [hout x hx]
        rw [this]; exact hL.1 u
  · have : univ.image L' = insert f (univ.image L) := by
      ext x
      simp only [mem_image, mem_univ, true_and, mem_insert]
      constructor
      · rintro ⟨u, rfl⟩
        by_cases hu : u ∈ C
        · exact .inl (hin u hu)
        · exact .inr ⟨u, (hout u hu).symm⟩
      · rintro (rfl | ⟨u, rfl⟩)
        · exact ⟨a, hin a haC⟩
        · by_cases hu : u ∈ C
          · exact ⟨v, (hout v hvC).trans (hCL u hu).symm⟩
          · exact ⟨u, hout u hu⟩
    unfold numRegions
    rw [this, card_insert_of_notMem hf]
    have := hL.2
    unfold numRegions at this
    rw [this]
  · intro x y hxy
    by_cases hx : x ∈ C <;> by_cases hy : y ∈ C
    · rw [hCL x hx, hCL y hy]
    · rw [hin x hx, hout y hy] at hxy; exact absurd hxy.symm (hf' y)
    · rw [hout x hx, hin y hy] at hxy; exact absurd hxy (hf' x)
    · rwa [hout x hx, hout y hy] at hxy
  · rw [hout v hvC, hin a haC]; exact hf' v
  · intro x y hxy hxv
    have hx : x ∉ C := fun h => hxv (hCL x h)
    have hy : y ∉ C := fun h => hxv (hxy.trans (hCL y h))
    rw [hout x hx, hout y hy, hxy]
  · intro x hx
    by_cases hxC : x ∈ C
    · exact .inr ((hin x hxC).trans (hin a haC).symm)
    · exact .inl ((hout x hxC).trans (hx.trans (hout v hvC).symm))

/-- A finer clustering has less within-region dissimilarity. -/
theorem withinPairs_refines {n : Nat} {κ ι : Type} [DecidableEq κ] [DecidableEq ι]
    {fine : Fin n → κ} {coarse : Fin n → ι} (h : Refines fine coarse) {d : Fin n → Fin n → ℚ}
    (hd : ∀ i j, i < j → 0 ≤ d i j) : withinPairs fine d ≤ withinPairs coarse d := by
  unfold withinPairs
  refine sum_le_sum_of_subset_of_nonneg (fun e he => ?_) (fun e he _ => ?_)
  · simp only [mem_filter, mem_univ, true_and] at he ⊢
    exact ⟨he.1, h _ _ he.2⟩
  · simp only [mem_filter, mem_univ, true_and] at he
    exact hd _ _ he.1

end Region
