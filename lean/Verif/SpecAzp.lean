import Mathlib.Algebra.BigOperators.Finprod
import Verif.Spec
/-
Specification: the automatic zoning procedure as its authors describe it, with all choices left open.
-/
namespace Region.Spec

section
variable {V : Type} [DecidableEq V] (adj : V → V → Bool) (allowed : (V → Int) → V → Int → Prop)

/-- Region `r` takes in admissible and allowed areas, in any order, until none is left. -/
inductive Grown (r : Int) : (V → Int) → (V → Int) → Prop
  | stop {L : V → Int} (h : ∀ a, Admissible adj L a r → ¬ allowed L a r) : Grown r L L
  | move {L L' : V → Int} {a : V} (ha : Admissible adj L a r) (hc : allowed L a r)
      (h : Grown r (moved L a r) L') : Grown r L L'

/-- The regions grow one after the other. -/
inductive Passed : List Int → (V → Int) → (V → Int) → Prop
  | nil {L : V → Int} : Passed [] L L
  | cons {r : Int} {rs : List Int} {L L' L'' : V → Int} (h : Grown adj allowed r L L')
      (t : Passed rs L' L'') : Passed (r :: rs) L L''

/-- `rs` lists the regions in use, each once. -/
def Enumerates (rs : List Int) (L : V → Int) : Prop := rs.Nodup ∧ ∀ x, x ∈ rs ↔ ∃ i, L i = x

/-- Passes over the regions, each in any order, are repeated as long as they lower `value`.  The clusterings
one can end with. -/
inductive Rounds (value : (V → Int) → ℚ) : (V → Int) → (V → Int) → Prop
  | last {rs : List Int} {L L' : V → Int} (hr : Enumerates rs L) (h : Passed adj allowed rs L L')
      (hv : ¬ value L' < value L) : Rounds value L L'
  | again {rs : List Int} {L L' L'' : V → Int} (hr : Enumerates rs L) (h : Passed adj allowed rs L L')
      (hv : value L' < value L) (t : Rounds value L' L'') : Rounds value L L''

/-- The clusterings the automatic zoning procedure can end with when it minimises `value`: a move is made
when it does not raise the value. -/
def Zoned (value : (V → Int) → ℚ) : (V → Int) → (V → Int) → Prop :=
  Rounds adj (fun L a r => value (moved L a r) ≤ value L) value

/-- The clusterings one can end with after a single pass over the regions. -/
def OnePass (init L : V → Int) : Prop := ∃ rs, Enumerates rs init ∧ Passed adj allowed rs init L

end

/-- Taking area `a` away from its region is harmless: none of its columns counts, or the rest of the region
still meets the thresholds. -/
def Dispensable {V Q : Type} (spat : V → Q → ℚ) (thr : Q → ℚ) (L : V → Int)
    (a : V) : Prop :=
  (∀ j, spat a j = 0) ∨
    ∀ j, thr j ≤ ∑ᶠ (u : V) (_ : L u = L a ∧ u ≠ a), spat u j

/-- The dissimilarities of the pairs of areas sharing a region, each pair taken both ways round. -/
noncomputable def dissimilarity {V : Type} (d : V → V → ℚ) (L : V → Int) : ℚ :=
  ∑ᶠ (p : V × V) (_ : p.1 ≠ p.2 ∧ L p.1 = L p.2), d p.1 p.2

/-- The areas of the island of `u`. -/
abbrev Island {V : Type} (adj : V → V → Bool) (u : V) : Type := {v : V // SameIsland adj u v}

/-- What is known about the map, restricted to the island of `u`. -/
abbrev onIsland {V β : Type} (adj : V → V → Bool) (u : V) (f : V → β) : Island adj u → β := fun v => f v

end Region.Spec
