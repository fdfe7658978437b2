import Verif.Basic
import Verif.Model.Memory
/-
Specification: what a computation may do to the arrays of its caller.
-/
namespace Region.Spec

/-- Every array that existed before still exists and has the same elements. -/
def ArraysKept (before after : Mem) : Prop :=
  ∀ (a : Addr) (l : List Int), before[a]? = some l → after[a]? = some l

/-- An array that did not exist before. -/
def NewArray (before after : Mem) (a : Addr) (l : List Int) : Prop :=
  before[a]? = none ∧ after[a]? = some l

/-- An argument that is `None` or an array with the given elements. -/
def Argument {n : Nat} (M : Mem) : Option Addr → Option (Labels n) → Prop
  | none, none => True
  | some p, some L => M[p]? = some (arrayList L)
  | _, _ => False

/-- Two computations end in the same way, and if they return, their results are related by `Q`. -/
def EndsLike {α β : Type} (Q : α → β → Prop) (x : Res α) (y : Res β) : Prop :=
  (∀ b, y = .ok b → ∃ a, x = .ok a ∧ Q a b) ∧ (∀ e, y = .raise e → x = .raise e) ∧
  (y = .timeout → x = .timeout)

end Region.Spec
