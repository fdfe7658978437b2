import Verif.Lemmas.TabuShort
import Verif.Props.AzpTabu
/-
Local optima on the islands are local optima on the map.
-/
namespace Region

open Spec Relation Props

/-- A sum over a region that lies in the list. -/
theorem sum_region_get {n : Nat} {idx : List (Fin n)} (hnd : idx.Nodup) {L : Labels n} {x : Int}
    (hall : ∀ v, L v = x → v ∈ idx) (g : Fin n → ℚ) :
    ∑ i ∈ Finset.univ.filter (fun i : Fin idx.length => L (idx.get i) = x), g (idx.get i) =
      ∑ v ∈ Finset.univ.filter (fun v => L v = x), g v := by
  refine Finset.sum_bij (fun i _ => idx.get i) ?_ ?_ ?_ ?_
  · intro i hi
    simpa using hi
  · intro i _ j _ hij
    exact hnd.injective_get hij
  · intro v hv
    have hv : L v = x := by simpa using hv
    obtain ⟨i, hi⟩ := List.get_of_mem (hall v hv)
    exact ⟨i, by simp only [Finset.mem_filter, Finset.mem_univ, true_and]; rw [hi]; exact hv, hi⟩
  · intro i _
    rfl

/-- A move that is admissible on the map is admissible among the areas of a list that contains both
regions. -/
theorem admissible_get {n : Nat} {adj : Adj n} {idx : List (Fin n)} (hnd : idx.Nodup)
    {L : Labels n} {a : Fin n} {r : Int} (ha : Admissible adj L a r)
    (hr : ∀ v, L v = r → v ∈ idx) (hold : ∀ v, L v = L a → v ∈ idx) :
    ∃ i : Fin idx.length, idx.get i = a ∧
      Admissible (subAdj adj idx) (fun i => L (idx.get i)) i r := by
  obtain ⟨hne, ⟨u, hu, hb⟩, ⟨b, hba, hbl⟩, hc⟩ := ha
  obtain ⟨i, hi⟩ := List.get_of_mem (hold a rfl)
  obtain ⟨j, hj⟩ := List.get_of_mem (hr u hu)
  obtain ⟨l, hl⟩ := List.get_of_mem (hold b hbl)
  have key : ∀ v : Fin idx.length, v ≠ i ↔ idx.get v ≠ a := by
    intro v
    rw [← hi]
    exact hnd.injective_get.ne_iff.symm
  refine ⟨i, hi, by dsimp only; rw [hi]; exact hne, ⟨j, by dsimp only; rw [hj]; exact hu, ?_⟩,
    ⟨l, by rw [key, hl]; exact hba, by dsimp only; rw [hl, hi]; exact hbl⟩, ?_⟩
  · unfold Borders at hb ⊢
    unfold subAdj
    rw [hi, hj]
    exact hb
  · refine ⟨⟨l, by dsimp only [Set.mem_ofPred_eq]; rw [hl, hi]; exact hbl, by rw [key, hl]; exact hba⟩, ?_⟩
    intro x hx y hy
    have hx1 : L (idx.get x) = L a := by have := hx.1; dsimp only at this; rwa [hi] at this
    have hy1 : L (idx.get y) = L a := by have := hy.1; dsimp only at this; rwa [hi] at this
    have hp := hc.2 (idx.get x) ⟨hx1, (key x).1 hx.2⟩ (idx.get y) ⟨hy1, (key y).1 hy.2⟩
    obtain ⟨z, hz, hp'⟩ := pathIn_restrict (nodes := idx) (fun v hv => hold v hv.1) hp x rfl
    have := hnd.injective_get hz
    subst this
    refine rtg_mono ?_ hp'
    rintro s t ⟨h1, h2, h3⟩
    refine ⟨⟨?_, (key s).2 h1.2⟩, ⟨?_, (key t).2 h2.2⟩, h3⟩
    · dsimp only; rw [hi]; exact h1.1
    · dsimp only; rw [hi]; exact h2.1

/-- If the result on every island is a local optimum of the pairwise objective, no admissible move on
the map improves it, moves from and to the areas with label -1 apart. -/
theorem fitted_localOptimum {n : Nat} {ρ : Type} {metric : ρ → ρ → ℚ}
    (hm : ∀ x y, metric x y = metric y x) (h0 : ∀ x, metric x x = 0) {adj : Adj n}
    (attr : Fin n → ρ) {lab labels : Labels n} (hc : AllContiguous adj lab)
    (hf : Fitted (fun idx init out => KeepsRegions (subAdj adj idx) init out ∧
      LocalOptimum (subAdj adj idx)
        (fun L => (pairwise metric).call L (fun i => attr (idx.get i))) out)
      (separateComponents adj lab) (fun _ => -1) labels) :
    FitOk adj lab labels ∧ ∀ a r, labels a ≠ -1 → r ≠ -1 → Admissible adj labels a r →
      (pairwise metric).call labels attr ≤ (pairwise metric).call (moved labels a r) attr := by
  obtain ⟨h1, h2⟩ := fit_result hf
  have hfit := fitOk_of_keeps hc h1 fun c hc => (h2 c hc).1
  refine ⟨hfit, ?_⟩
  intro a r ha hr had
  have he : (pairwise metric).Exact := pairwise_exact hm h0
  have hmem : ∀ x, labels x ≠ -1 → SameIsland adj a x →
      x ∈ shown (compArray adj lab (compLabels adj a)) := by
    intro x hx hax
    rw [mem_shown, compArray_ne]
    exact ⟨(compLabels_eq_iff adj _ _).2 (sameIsland_symm hax), fun h => hx ((hfit.frozen x).2 h)⟩
  have hisl : ∀ u v, labels u = labels v → SameIsland adj u v := fun u v huv =>
    pathIn_sameIsland ((hfit.contiguous u).2 u rfl v huv.symm)
  obtain ⟨u, hu, hb⟩ := had.2.1
  have hau : SameIsland adj a u := sameIsland_symm (.single hb)
  have hin1 : ∀ v, labels v = r → v ∈ shown (compArray adj lab (compLabels adj a)) := by
    intro v hv
    exact hmem v (by rw [hv]; exact hr) (hau.trans (hisl u v (by rw [hu, hv])))
  have hin2 : ∀ v, labels v = labels a → v ∈ shown (compArray adj lab (compLabels adj a)) := by
    intro v hv
    exact hmem v (by rw [hv]; exact ha) (hisl a v hv.symm)
  have hnd := shown_nodup (compArray adj lab (compLabels adj a))
  obtain ⟨i, hi, hadi⟩ := admissible_get hnd had hin1 hin2
  have hopt := (h2 _ (compLabels_lt adj a)).2 i r hadi
  dsimp only at hopt
  obtain ⟨j, hj⟩ := List.get_of_mem (hin1 u hu)
  have hd1 := (pairwise_update_iff (metric := metric) (attr := fun i => attr
    ((shown (compArray adj lab (compLabels adj a))).get i)) (a := i) (r := r)
    (L := fun i => labels ((shown (compArray adj lab (compLabels adj a))).get i))).2
    ⟨⟨j, by rw [hj]; exact hu⟩, rfl⟩
  have hd2 := (pairwise_update_iff (metric := metric) (attr := attr) (a := a) (r := r)
    (L := labels)).2 ⟨⟨u, hu⟩, rfl⟩
  rw [he _ _ _ _ _ hd1] at hopt
  rw [he _ _ _ _ _ hd2]
  rw [hi, sum_region_get hnd hin1 fun v => metric (attr v) (attr a),
    sum_region_get hnd hin2 fun v => metric (attr v) (attr a)] at hopt
  linarith

end Region
