import Mathlib.Data.Finset.Card
import Mathlib.Data.Finset.Range
/-
Specification: repetitions in the history of a search.
-/
namespace Region.Spec

open Finset

/-- `cycle` is the part of the history since the last time `now` was seen. -/
def SinceLast {α : Type} (history : List α) (now : α) (cycle : List α) : Prop :=
  ∃ before after, history = before ++ cycle ∧ cycle = now :: after ∧ now ∉ after

/-- The sequence `cycle` is found at position `i` of the history. -/
def FoundAt {α : Type} (history cycle : List α) (i : Nat) : Prop :=
  ∀ j < cycle.length, history[i + j]? = cycle[j]?

instance {α : Type} [DecidableEq α] (history cycle : List α) (i : Nat) :
    Decidable (FoundAt history cycle i) := by
  unfold FoundAt; infer_instance

/-- How often the sequence is found in the history, not counting the end of the history. -/
def earlierOccasions {α : Type} [DecidableEq α] (history cycle : List α) : Nat :=
  ((range (history.length - cycle.length)).filter (FoundAt history cycle)).card

end Region.Spec
