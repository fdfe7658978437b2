import Mathlib.Logic.Relation
import Mathlib.Data.Fintype.Card
import Mathlib.Data.Fintype.Basic
import Mathlib.Data.Fintype.Prod
import Mathlib.Data.Set.Basic
import Mathlib.Algebra.BigOperators.Group.Finset.Basic
import Mathlib.Algebra.Order.Ring.Rat
/-
Specification vocabulary.  Nothing in this file mentions the model: the notions are the ones
a user of the library has in mind (paths on a map, contiguous regions, feasible clusterings).
-/
namespace Region.Spec

open Relation

/-- Two areas are joined by a border (an entry in either direction). -/
def Borders {V : Type} (adj : V → V → Bool) (a b : V) : Prop :=
  adj a b = true ∨ adj b a = true

/-- One step from `a` to `b` over a border without leaving `S`. -/
def StepIn {V : Type} (adj : V → V → Bool) (S : Set V) (a b : V) : Prop :=
  a ∈ S ∧ b ∈ S ∧ Borders adj a b

/-- `b` can be reached from `a` by walking over borders without leaving `S`. -/
def PathIn {V : Type} (adj : V → V → Bool) (S : Set V) : V → V → Prop :=
  ReflTransGen (StepIn adj S)

/-- A set of areas is spatially contiguous: it is not empty, and one can walk between any two
of its areas without leaving it. -/
def Contiguous {V : Type} (adj : V → V → Bool) (S : Set V) : Prop :=
  S.Nonempty ∧ ∀ a ∈ S, ∀ b ∈ S, PathIn adj S a b

/-- Two areas belong to the same connected component (island) of the map. -/
def SameIsland {V : Type} (adj : V → V → Bool) : V → V → Prop :=
  ReflTransGen (Borders adj)

/-- `lab` tells the islands of the map apart (and nothing more). -/
def Separates {V L : Type} (lab : V → L) (adj : V → V → Bool) : Prop :=
  ∀ a b, lab a = lab b ↔ SameIsland adj a b

/-- The whole map is connected. -/
def Connected {V : Type} (adj : V → V → Bool) : Prop :=
  Nonempty V ∧ ∀ a b, SameIsland adj a b

/-- The areas carrying a label. -/
def regionOf {V L : Type} (labels : V → L) (r : L) : Set V := {v | labels v = r}

/-- Every region in use is spatially contiguous. -/
def AllContiguous {V L : Type} (adj : V → V → Bool) (labels : V → L) : Prop :=
  ∀ v, Contiguous adj (regionOf labels (labels v))

/-- The number of regions in use. -/
def numRegions {V L : Type} [Fintype V] [DecidableEq L] (labels : V → L) : Nat :=
  (Finset.univ.image labels).card

/-- A feasible clustering into `p` regions. -/
def Feasible {V L : Type} [Fintype V] [DecidableEq L] (adj : V → V → Bool) (labels : V → L)
    (p : Nat) : Prop :=
  AllContiguous adj labels ∧ numRegions labels = p

/-- The map is undirected. -/
def Symmetric {V : Type} (adj : V → V → Bool) : Prop := ∀ a b, adj a b = adj b a

/-- The labelling after one area has been given another label. -/
def moved {V L : Type} [DecidableEq V] (labels : V → L) (a : V) (r : L) : V → L :=
  fun v => if v = a then r else labels v

/-- Area `a` may be moved to region `r`: it lies outside `r` and borders it, and its own region has
another area and stays contiguous without it. -/
def Admissible {V L : Type} (adj : V → V → Bool) (labels : V → L) (a : V) (r : L) : Prop :=
  labels a ≠ r ∧ (∃ u, labels u = r ∧ Borders adj u a) ∧
    (∃ b, b ≠ a ∧ labels b = labels a) ∧
    Contiguous adj {x | labels x = labels a ∧ x ≠ a}

/-- Sum of the dissimilarities of all unordered pairs of distinct areas sharing a region. -/
def withinPairs {n : Nat} {L : Type} [DecidableEq L] (labels : Fin n → L)
    (d : Fin n → Fin n → ℚ) : ℚ :=
  ∑ p ∈ Finset.univ.filter (fun p : Fin n × Fin n => p.1 < p.2 ∧ labels p.1 = labels p.2),
    d p.1 p.2

/-- Sum over the regions of a value that depends on the areas of the region only. -/
def sumOverRegions {V L : Type} [Fintype V] [DecidableEq L] (labels : V → L)
    (h : Finset V → ℚ) : ℚ :=
  ∑ r ∈ Finset.univ.image labels, h (Finset.univ.filter fun v => labels v = r)

/-- In every region in use, every column of `spat` sums up to the threshold at least. -/
def MeetsThreshold {V L Q : Type} [Fintype V] [DecidableEq L] (labels : V → L) (spat : V → Q → ℚ)
    (thr : Q → ℚ) : Prop :=
  ∀ v j, thr j ≤ ∑ u ∈ Finset.univ.filter (fun u => labels u = labels v), spat u j

/-- Every region in use has at least `q` areas. -/
def MeetsQuorum {V L : Type} [Fintype V] [DecidableEq L] (labels : V → L) (q : ℚ) : Prop :=
  ∀ v, q ≤ ((Finset.univ.filter fun u => labels u = labels v).card : ℚ)

/-- Every region of `fine` lies inside a region of `coarse`. -/
def Refines {V L L' : Type} (fine : V → L) (coarse : V → L') : Prop :=
  ∀ a b, fine a = fine b → coarse a = coarse b

/-- `fine` arises from `coarse` by splitting one region in two: the areas with label `coarse v` are
divided, all other regions stay what they are. -/
def SplitsOne {V L L' : Type} (fine : V → L) (coarse : V → L') : Prop :=
  Refines fine coarse ∧ ∃ v w, coarse v = coarse w ∧ fine v ≠ fine w ∧
    (∀ a b, coarse a = coarse b → coarse a ≠ coarse v → fine a = fine b) ∧
    (∀ a, coarse a = coarse v → fine a = fine v ∨ fine a = fine w)

end Region.Spec
