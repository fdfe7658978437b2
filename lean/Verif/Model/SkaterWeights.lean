import Verif.Model.Objects
import Verif.Model.Skater
import Verif.Model.Sparse
/-
The `W` object handed to `Spanning_Forest.fit`: its weights and its attribute `transform`.

What libpysal does is assumed: `W.transform = 'b'` gives every listed neighbor the weight 1 (whatever its
weight was), and `W.sparse` stores the current weights.
-/
namespace Region.Skater

/-- A `libpysal.weights.W` whose ids are the areas: the listed neighbors with their current weights, and
the name of the current transformation. -/
structure WObj (n : Nat) where
  weights : Csr n
  transform : String

/-- The same entries with the value 1. -/
def ones {n : Nat} (A : Csr n) : Csr n where
  rows i := (A.rows i).map fun e => (e.1, 1)
  sorted i := by
    have : ((A.rows i).map fun e => (e.1, (1 : ℚ))).map Prod.fst = (A.rows i).map Prod.fst := by
      rw [List.map_map]; rfl
    rw [this]; exact A.sorted i

/-- `W.transform = 'b'` (skater.py 75). -/
def WObj.setBinary {n : Nat} (w : WObj n) : WObj n := ⟨ones w.weights, "B"⟩

/-- `fit` (skater.py 47-145) with the object `W`.  The function `metric` is a parameter and may raise
(skater.py 74); without data it is not called. -/
def fitW (o : WeightOrder) (S : SpanningForest) {n : Nat} (fuel : Nat) (nClusters : Option Int)
    (metric : {m : Nat} → (Fin n → Row m) → Res (Fin n → Fin n → ℚ))
    (data : Option (Σ m : Nat, Fin n → Row m)) (quorum : Option ℚ) (trace : Bool)
    (islands : String) : Py (WObj n) (Outcome n) :=
  match data with
  | none => do
    Py.set WObj.setBinary
    let sparse ← Py.read fun w => .ok w.weights
    Py.lift (fitKernel o S (m := 1) fuel nClusters (fun _ _ => true) (fun i j => sparse.value i j * 1)
      (fun _ _ => 1) quorum trace islands)
  | some ⟨_, data⟩ => do
    let kernel ← Py.lift (metric data)
    Py.set WObj.setBinary
    let sparse ← Py.read fun w => .ok w.weights
    Py.lift (fitKernel o S fuel nClusters (fun _ _ => true)
      (fun i j => sparse.value i j * kernel i j) data quorum trace islands)

end Region.Skater
