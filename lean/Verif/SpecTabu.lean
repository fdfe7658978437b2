import Verif.Spec
/-
Specification vocabulary for local search.  As in `Spec`, nothing here mentions the model.
-/
namespace Region.Spec

section
variable {V L : Type} [DecidableEq V]

/-- No admissible move improves `f`. -/
def LocalOptimum (adj : V → V → Bool) (f : (V → L) → ℚ) (labels : V → L) : Prop :=
  ∀ a r, Admissible adj labels a r → f labels ≤ f (moved labels a r)

/-- `labels'` is reached from `labels` by an admissible move that improves `f`, and by no admissible move
something better is reached. -/
def Steepest (adj : V → V → Bool) (f : (V → L) → ℚ) (labels labels' : V → L) : Prop :=
  f labels' < f labels ∧ (∃ a r, Admissible adj labels a r ∧ labels' = moved labels a r) ∧
    ∀ a r, Admissible adj labels a r → f labels' ≤ f (moved labels a r)

/-- `labels'` is reached from `labels` by that many steps of steepest descent. -/
inductive Descent (adj : V → V → Bool) (f : (V → L) → ℚ) : Nat → (V → L) → (V → L) → Prop
  | start (labels : V → L) : Descent adj f 0 labels labels
  | step {j : Nat} {labels before after : V → L} : Descent adj f j labels before →
      Steepest adj f before after → Descent adj f (j + 1) labels after

/-- `labels'` is reached from `labels` by an admissible move that does not change `f`. -/
def Sideways (adj : V → V → Bool) (f : (V → L) → ℚ) (labels labels' : V → L) : Prop :=
  f labels' = f labels ∧ ∃ a r, Admissible adj labels a r ∧ labels' = moved labels a r

/-- What a steepest descent of at most `limit` steps yields if it looks one step ahead and hands back the
labelling before the step it made last: a local optimum reached by descent (or, if the start is one, a
labelling one sideways move away), or, if the limit is reached, the labelling one step before the last
(the last one if there was only one step). -/
def DescentResult (adj : V → V → Bool) (f : (V → L) → ℚ) (limit : Nat) (init out : V → L) : Prop :=
  (∃ j, j < limit ∧ Descent adj f j init out ∧ LocalOptimum adj f out) ∨
  (LocalOptimum adj f init ∧ Sideways adj f init out) ∨
  (limit = 1 ∧ Steepest adj f init out) ∨
  ∃ last, 2 ≤ limit ∧ Descent adj f (limit - 1) init out ∧ Steepest adj f out last

/-- A descent of fewer than `limit` steps leads to a labelling with no admissible move but the one back. -/
def DeadEnd (adj : V → V → Bool) (f : (V → L) → ℚ) (limit : Nat) (init : V → L) : Prop :=
  (1 ≤ limit ∧ ∀ a r, ¬ Admissible adj init a r) ∨
  ∃ j before after, j + 1 < limit ∧ Descent adj f j init before ∧ Steepest adj f before after ∧
    ∀ a r, Admissible adj after a r → moved after a r = before

end

end Region.Spec
