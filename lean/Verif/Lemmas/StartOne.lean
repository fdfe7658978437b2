import Verif.Lemmas.StartGen
import Verif.Lemmas.OneIsland
/-
`fit` without initial labels on a connected map: it does what `fit` does with a cut of the spanning tree.
-/
namespace Region

open Spec Relation Props

section
variable {σ ρ : Type} {n : Nat} {adj : Adj n}

/-- On a connected map, `fit` without initial labels can do what `fit` with the labels of a cut does. -/
theorem fitWith_none_reaches (o : MstOrder) (hcon : Connected adj) {attr : Fin n → ρ}
    {comp : CompFn σ n ρ} {p : Int} (hn : 0 < n) (hp : p ≤ n) (hp1 : p ≠ 1) (hp0 : 1 ≤ p)
    {K : Finset (Fin n × Fin n)} (hK : K ⊆ forestOf o adj) (hcard : (K.card : Int) = n - p) (st : σ) :
    ∃ lab : Labels n, lab = cutLabels o adj K ∧ AllContiguous adj lab ∧ (numRegions lab : Int) = p ∧ (∀ v, 0 ≤ lab v) ∧
      (∀ u v, lab u = lab v ↔ Linked K u v) ∧
      ∀ r', ∃ r0, fitWith o adj attr comp p none st r0 = fitWith o adj attr comp p (some lab) st r' := by
  have h1 := (nComponents_eq_one_iff _).2 hcon
  have hsep : ∀ lab, separateComponents adj lab = [lab] := by
    intro lab
    rw [separateComponents_eq, h1]
    change [compArray adj lab 0] = _
    rw [compArray_connected hcon]
  obtain ⟨gen, hgen, hy⟩ := generateInitialSol_complete hn hp hp1 (by rw [h1]; exact_mod_cast hp0) hK hcard
  rw [hsep] at hy
  obtain ⟨s, hs, rfl⟩ : ∃ s, CanYield s (cutLabels o adj K) ∧ gen = [s] := by
    cases hy with
    | cons h h' => cases h'; exact ⟨_, h, rfl⟩
  obtain ⟨r1, hr1⟩ := hgen fun _ => 0
  obtain ⟨gen', r', e1, -, e3⟩ := generateInitialSol_spec o adj p r1 hn hp hp1
    (by rw [h1]; exact_mod_cast hp0)
  rw [hr1] at e1
  cases e1
  obtain ⟨lab, e4, e5, e6, e7⟩ := e3 [cutLabels o adj K] (.cons ⟨_, _, (hs fun _ => 0).choose_spec⟩ .nil)
  rw [hsep] at e4
  cases e4
  have hnum := numRegions_Ico (by omega) e6 e7
  refine ⟨cutLabels o adj K, rfl, e5, hnum, fun v => (e6 v).1, cutLabels_iff hK, fun r' => ?_⟩
  obtain ⟨r2, hr2⟩ := hs r'
  obtain ⟨r0, hr0⟩ := hgen r2
  refine ⟨r0, ?_⟩
  unfold fitWith
  dsimp only
  rw [hr0, Res.bind_ok, (c04_assert_feasible_ok _ adj (some p)).2 ⟨e5, by rintro _ ⟨⟩; exact hnum⟩,
    Res.bind_ok, hsep]
  dsimp only [List.map]
  unfold fitLoop
  rw [hr2]

end

end Region
