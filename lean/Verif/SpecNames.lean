import Verif.Spec
/-
Specification: clusterings that differ in the names of the regions only.
-/
namespace Region.Spec

/-- The same areas are together. -/
def SamePartition {n : Nat} (a b : Fin n → Int) : Prop := ∀ i j, a i = a j ↔ b i = b j

/-- The names of the regions are in the same order. -/
def SameNameOrder {n : Nat} (a b : Fin n → Int) : Prop := ∀ i j, a i < a j ↔ b i < b j

/-- Started from `init` and `init'`, two methods arrived at `out` and `out'`: every area ends in the
regions that started with the same areas. -/
def SameResult {n : Nat} (init init' out out' : Fin n → Int) : Prop :=
  (∀ i j, out i = init j ↔ out' i = init' j) ∧ SamePartition out out'

end Region.Spec
