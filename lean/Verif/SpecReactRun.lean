import Verif.SpecTabuRun
/-
The reactive tabu search as a procedure, for property C131.
-/
namespace Region.Spec

section
variable {V : Type} [LT V] [DecidableEq V] (adj : V → V → Bool) (value : (V → Int) → ℚ)

/-- One round: the best move is made if it does no harm; only the way back of the last move is forbidden. -/
def ReactStep (x y : Search V) : Prop :=
  Descends adj value (some 1) x y ∨ (∃ m, Open adj (some 1) x m) ∧ Stuck adj value (some 1) x ∧ y = x

/-- From `init` one gets to `x` in so many rounds that are all improvements. -/
inductive ReactSteps (init : V → Int) : Nat → Search V → Prop
  | start : ReactSteps init 0 ⟨init, [], [], False⟩
  | step {j : Nat} {x y : Search V} : ReactSteps init j x → ReactStep adj value x y →
      value y.labels < value x.labels → ReactSteps init (j + 1) y

/-- After some improving rounds, fewer than `limit`, there is one more that is no improvement or reaches the limit.
It leads from `before` to `after`; `first` says whether it is the first one. -/
def ReactLast (limit : Nat) (init : V → Int) (first : Bool) (before after : V → Int) : Prop :=
  ∃ j x y, j < limit ∧ ReactSteps adj value init j x ∧ ReactStep adj value x y ∧
    (j + 1 = limit ∨ value x.labels ≤ value y.labels) ∧ (first = true ↔ j = 0) ∧ before = x.labels ∧ after = y.labels

/-- The result is the clustering before the last round, or after it if it was the first. -/
def ReactResult (limit : Nat) (init out : V → Int) : Prop :=
  ∃ first before after, ReactLast adj value limit init first before after ∧ out = if first then after else before

/-- After some improving rounds, fewer than `limit`, there is no open move. -/
def ReactFails (limit : Nat) (init : V → Int) : Prop :=
  ∃ j x, j < limit ∧ ReactSteps adj value init j x ∧ ∀ m, ¬ Open adj (some 1) x m

end

end Region.Spec
