import Verif.Spec
/-
Specification: the links of a map no detour is better than, and cuts that are never equally good.
-/
namespace Region.Spec

section
variable {V : Type}

/-- A border of the map such that no detour over borders between less different areas leads from one side
to the other. -/
def NoDetour (adj : V → V → Bool) (w : V → V → ℚ) (a b : V) : Prop :=
  adj a b = true ∧ ¬ SameIsland (fun i j => adj i j && decide (w i j < w a b)) a b

/-- No two borders separate equally different areas. -/
def AllDifferent (adj : V → V → Bool) (w : V → V → ℚ) : Prop :=
  ∀ a b c d, adj a b = true → adj c d = true → w a b = w c d → (c = a ∧ d = b) ∨ (c = b ∧ d = a)

/-- The map without one of its borders. -/
def uncut [DecidableEq V] (adj : V → V → Bool) (a b : V) : V → V → Bool := fun i j =>
  adj i j && decide (¬ (i = a ∧ j = b) ∧ ¬ (i = b ∧ j = a))

/-- Whichever of the given links are left, no two cuts are equally good. -/
def NoEqualCuts [DecidableEq V] (F : V → V → Prop) (value : (V → Int) → ℚ) : Prop :=
  ∀ T : V → V → Bool, (∀ a b, T a b = true → F a b) →
    ∀ a b c d, T a b = true → T c d = true →
      ∀ L L' : V → Int, Separates L (uncut T a b) → Separates L' (uncut T c d) → value L = value L' →
        (c = a ∧ d = b) ∨ (c = b ∧ d = a)

end

end Region.Spec
