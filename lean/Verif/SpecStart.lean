import Mathlib.Data.Set.Card
import Verif.Spec
/-
Specification: the clusterings one gets by cutting links of a spanning forest of the map.
-/
namespace Region.Spec

section
variable {V : Type} [DecidableEq V]

/-- Two areas are connected by the given links. -/
def Linked (K : Finset (V × V)) : V → V → Prop := SameIsland fun a b => decide ((a, b) ∈ K)

/-- `F` is a spanning forest of the map: links of the map which connect whatever the map connects, and of
which none can be spared. -/
structure SpanningLinks (adj : V → V → Bool) (F : Finset (V × V)) : Prop where
  real : ∀ e ∈ F, adj e.1 e.2 = true
  spans : ∀ a b, SameIsland adj a b → Linked F a b
  needed : ∀ e ∈ F, ¬ Linked (F.erase e) e.1 e.2

end

/-- The regions are numbered `0, …, p - 1`: island after island, both the islands and the regions of an
island in the order of their first areas. -/
structure InOrder {n : Nat} (adj : Fin n → Fin n → Bool) (p : Int) (lab : Fin n → Int) : Prop where
  numbers : ∀ x, (∃ v, lab v = x) ↔ 0 ≤ x ∧ x < p
  regions : ∀ u v, lab u < lab v → SameIsland adj u v →
    ∃ a, lab a = lab u ∧ ∀ b, lab b = lab v → a < b
  islands : ∀ u v, lab u < lab v → ¬ SameIsland adj u v →
    ∃ a, SameIsland adj a u ∧ ∀ b, SameIsland adj b v → a < b

/-- The clusterings into `p` regions one gets by cutting links of `F`: so many links are kept that `p`
pieces are left if none of them can be spared. -/
def CutFrom {n : Nat} (adj : Fin n → Fin n → Bool) (F : Finset (Fin n × Fin n)) (p : Int)
    (lab : Fin n → Int) : Prop :=
  InOrder adj p lab ∧ ∃ K, K ⊆ F ∧ (K.card : Int) = n - p ∧ ∀ u v, lab u = lab v ↔ Linked K u v

/-- The number of areas of the largest piece the links leave. -/
noncomputable def largestPiece {n : Nat} (T : List (Fin n × Fin n)) : Nat :=
  Finset.univ.sup fun v => {u | Linked T.toFinset v u}.ncard

/-- Of the links tried, `e` is the first one of those that leave the smallest largest piece when cut. -/
def MostBalanced {n : Nat} (T tried : List (Fin n × Fin n)) (e : Fin n × Fin n) : Prop :=
  ∃ before after, tried = before ++ e :: after ∧
    (∀ x ∈ before, largestPiece (T.erase e) < largestPiece (T.erase x)) ∧
    ∀ x ∈ after, largestPiece (T.erase e) ≤ largestPiece (T.erase x)

/-- Links are cut one after the other; each time five links are drawn (with replacement) and the most
balanced of them is cut.  The draws are positions in the list of the remaining links. -/
inductive BestOfFive {n : Nat} : (Nat → Nat) → Nat → List (Fin n × Fin n) → List (Fin n × Fin n) → Prop
  | done (r : Nat → Nat) (T : List (Fin n × Fin n)) : BestOfFive r 0 T T
  | cut (r : Nat → Nat) (k : Nat) (T T' : List (Fin n × Fin n)) (e : Fin n × Fin n) (h0 : 0 < T.length)
      (he : MostBalanced T ((List.range 5).map fun i => T[r i % T.length]'(Nat.mod_lt _ h0)) e)
      (h : BestOfFive (fun i => r (i + 5)) k (T.erase e) T') : BestOfFive r (k + 1) T T'

end Region.Spec
