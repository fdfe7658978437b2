import Verif.Lemmas.Sparse
import Verif.Model.SkaterWeights
/-
SKATER's matrix of dissimilarities with the weights of a `W` object.
-/
namespace Region.Skater

open Region

variable (o : WeightOrder) (S : SpanningForest) {n : Nat} (fuel : Nat) (nClusters : Option Int)
  (quorum : Option ℚ) (trace : Bool) (islands : String)

theorem get?_ones (A : Csr n) (i j : Fin n) : (ones A).get? i j = (A.get? i j).map fun _ => 1 := by
  unfold Csr.get? ones
  simp only [List.find?_map, Function.comp_def, Option.map_map]

theorem value_ones (A : Csr n) (i j : Fin n) : (ones A).value i j = if A.stored i j then 1 else 0 := by
  unfold Csr.value
  rw [get?_ones]
  cases h : A.get? i j with
  | none =>
    have : A.stored i j = false := by
      rw [← Bool.not_eq_true, Csr.stored_iff]; simp [h]
    simp [this]
  | some w =>
    have : A.stored i j = true := (Csr.stored_iff A i j).2 ⟨w, h⟩
    simp [this]

theorem dissim_ones (A : Csr n) (kernel : Fin n → Fin n → ℚ) :
    dissim (fun _ _ => true) (fun i j => (ones A).value i j * kernel i j) = dissim A.stored kernel := by
  funext i j
  unfold dissim
  dsimp only
  rw [value_ones]
  by_cases h : A.stored i j = true <;> simp [h]

theorem fitKernel_ones {m : Nat} (A : Csr n) (kernel : Fin n → Fin n → ℚ) (data : Fin n → Row m) :
    fitKernel o S fuel nClusters (fun _ _ => true) (fun i j => (ones A).value i j * kernel i j) data quorum
      trace islands = fitKernel o S fuel nClusters A.stored kernel data quorum trace islands := by
  unfold fitKernel
  rw [dissim_ones]

end Region.Skater
