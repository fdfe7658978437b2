import Mathlib.Algebra.BigOperators.Group.Finset.Basic
import Verif.SpecAzp
/-
Specification: the construction of partitions in the heuristic for the max-p-regions problem as its authors
describe it, with all choices left open.
-/
namespace Region.Spec

section
variable {V Q : Type} [DecidableEq V] (adj : V → V → Bool) (d : V → V → ℚ) (spat : V → Q → ℚ) (thr : Q → ℚ)

/-- The areas of `R` together reach all thresholds. -/
def Reaches (R : Finset V) : Prop := ∀ j, thr j ≤ ∑ v ∈ R, spat v j

/-- Area `v` lies at the border of the areas `R`. -/
def Touches (R : Finset V) (v : V) : Prop := ∃ u ∈ R, Borders adj u v

/-- The dissimilarity between area `v` and the areas `R`. -/
def distTo (v : V) (R : Finset V) : ℚ := ∑ u ∈ R, d v u

/-- `Built U R ok U' R'`: from the free areas `U` the region `R` takes in least dissimilar areas at its border
until it reaches the thresholds (`ok`) or there is no free area at its border.  It becomes `R'`, and the areas
`U'` stay free. -/
inductive Built : Finset V → Finset V → Bool → Finset V → Finset V → Prop
  | full {U R : Finset V} (h : Reaches spat thr R) : Built U R true U R
  | stuck {U R : Finset V} (h : ¬ Reaches spat thr R) (hn : ∀ v ∈ U, ¬ Touches adj R v) : Built U R false U R
  | take {U R U' R' : Finset V} {ok : Bool} {v : V} (h : ¬ Reaches spat thr R) (hv : v ∈ U)
      (ht : Touches adj R v) (hm : ∀ w ∈ U, Touches adj R w → distTo d v R ≤ distTo d w R)
      (t : Built (U.erase v) (insert v R) ok U' R') : Built U R ok U' R'

/-- `Constructed P E U P' E'`: as long as there are free areas (`U`), one of them is the seed of a new region;
the ones which do not reach the thresholds are set aside (`E`). -/
inductive Constructed : List (Finset V) → Finset V → Finset V → List (Finset V) → Finset V → Prop
  | done {P : List (Finset V)} {E : Finset V} : Constructed P E ∅ P E
  | region {P P' : List (Finset V)} {E E' U U' R : Finset V} {v : V} (hv : v ∈ U)
      (h : Built adj d spat thr (U.erase v) {v} true U' R) (t : Constructed (P ++ [R]) E U' P' E') :
      Constructed P E U P' E'
  | enclave {P P' : List (Finset V)} {E E' U U' R : Finset V} {v : V} (hv : v ∈ U)
      (h : Built adj d spat thr (U.erase v) {v} false U' R) (t : Constructed P (E ∪ R) U' P' E') :
      Constructed P E U P' E'

/-- `Absorbed P E P'`: the areas set aside (`E`) join, one after the other, a least dissimilar one of the
regions they border. -/
inductive Absorbed : List (Finset V) → Finset V → List (Finset V) → Prop
  | done {P : List (Finset V)} : Absorbed P ∅ P
  | join {P P' : List (Finset V)} {E : Finset V} {v : V} {i : Nat} (hv : v ∈ E) (hi : i < P.length)
      (ht : Touches adj P[i] v)
      (hm : ∀ R ∈ P, Touches adj R v → distTo d v P[i] ≤ distTo d v R)
      (t : Absorbed (P.modify i (insert v)) (E.erase v) P') : Absorbed P E P'

/-- The clustering in which the areas of the `i`-th region have the label `i`. -/
def Numbered (P : List (Finset V)) (L : V → Int) : Prop :=
  ∀ v, ∃ i, ∃ h : i < P.length, L v = i ∧ v ∈ P[i]

end

/-- `x` is the first one with the least value in a list. -/
def FirstBest {X : Type} (value : X → ℚ) (xs : List X) (x : X) : Prop :=
  ∃ before after, xs = before ++ x :: after ∧ (∀ y ∈ before, value x < value y) ∧ ∀ y ∈ after, value x ≤ value y

/-- `MaxpResult … k improved p L`: the heuristic for the max-p-regions problem with `k` constructions can end
with the clustering `L` into `p` regions.  `p` is the largest number of regions in a construction; the areas set
aside in the constructions with `p` regions are absorbed; each of the resulting partitions is improved
(`improved`) as many times as there are partitions, one partition after the other in every round; `L` is the first
one with the least value. -/
def MaxpResult {V Q : Type} [DecidableEq V] [Fintype V] (adj : V → V → Bool) (d : V → V → ℚ) (spat : V → Q → ℚ)
    (thr : Q → ℚ) (k : Nat) (improved : (V → Int) → (V → Int) → Prop) (p : Nat) (L : V → Int) : Prop :=
  ∃ runs : List (List (Finset V) × Finset V), runs.length = k ∧
    (∀ run ∈ runs, Constructed adj d spat thr [] ∅ Finset.univ run.1 run.2) ∧
    (∀ run ∈ runs, run.1.length ≤ p) ∧ (∃ run ∈ runs, run.1.length = p) ∧
    ∃ parts, List.Forall₂ (fun run P => Absorbed adj d run.1 run.2 P)
      (runs.filter fun run => run.1.length = p) parts ∧
    ∃ results, List.Forall₂ (fun P M => ∃ init, Numbered P init ∧ improved init M)
      (List.replicate parts.length parts).flatten results ∧
    FirstBest (dissimilarity d) results L

end Region.Spec
