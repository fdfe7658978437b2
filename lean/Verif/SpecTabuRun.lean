import Verif.Spec
/-
The basic tabu search as a procedure with open choices, for property C130.
-/
namespace Region.Spec

section
variable {V : Type} [LT V] [DecidableEq V]

/-- A move: an area, the region it leaves and the region it enters. -/
structure Shift (V : Type) where
  area : V
  old : Int
  new : Int

/-- How far a search has come: the clustering, the moves that were forbidden one after the other, the
clusterings seen at the start of a round, and whether the search is to end. -/
structure Search (V : Type) where
  labels : V → Int
  barred : List (Shift V)
  seen : List (V → Int)
  due : Prop

/-- The move is among the last `len` that were forbidden; without a length all of them count. -/
def Forbidden (len : Option Nat) (x : Search V) (m : Shift V) : Prop :=
  match len with
  | none => m ∈ x.barred
  | some l => ∃ i < l, x.barred.reverse[i]? = some m

variable (adj : V → V → Bool) (value : (V → Int) → ℚ) (len : Option Nat) (reps : Int)

/-- The move can be made and is not tabu. -/
def Open (x : Search V) (m : Shift V) : Prop :=
  m.old = x.labels m.area ∧ Admissible adj x.labels m.area m.new ∧ ¬ Forbidden len x m

/-- The first move comes earlier: its area does, or its region has the earlier neighbour of the area. -/
def Earlier (x : Search V) (m m' : Shift V) : Prop :=
  m.area < m'.area ∨ m.area = m'.area ∧ ∃ u, adj m.area u = true ∧ x.labels u = m.new ∧
    ∀ u', adj m.area u' = true → x.labels u' = m'.new → u < u'

/-- No open move leads to a smaller value, and no earlier one to the same. -/
def Best (x : Search V) (m : Shift V) : Prop :=
  Open adj len x m ∧ ∀ m', Open adj len x m' → m' = m ∨
    value (moved x.labels m.area m.new) < value (moved x.labels m'.area m'.new) ∨
    value (moved x.labels m.area m.new) = value (moved x.labels m'.area m'.new) ∧ Earlier adj x m m'

/-- An area is sent to a region: it goes there if this keeps all regions contiguous.  The way back is forbidden
in any case. -/
def Sent (a : V) (r : Int) (x y : Search V) : Prop :=
  y.barred = x.barred ++ [⟨a, r, x.labels a⟩] ∧ y.seen = x.seen ∧ y.due = x.due ∧
  (AllContiguous adj (moved x.labels a r) → y.labels = moved x.labels a r) ∧
  (¬ AllContiguous adj (moved x.labels a r) → y.labels = x.labels)

open Classical in
/-- At the start of a round the clustering is noted; once one has been seen `reps` times before, the search is
to end. -/
noncomputable def noted (x : Search V) : Search V :=
  ⟨x.labels, x.barred, x.seen ++ [x.labels], x.due ∨ reps ≤ (x.seen.count x.labels : Int)⟩

/-- The best move does no harm and is made. -/
def Descends (x y : Search V) : Prop :=
  ∃ m, Best adj value len x m ∧ value (moved x.labels m.area m.new) ≤ value x.labels ∧
    Sent adj m.area m.new x y

/-- Every open move does harm. -/
def Stuck (x : Search V) : Prop :=
  ∀ m, Open adj len x m → value x.labels < value (moved x.labels m.area m.new)

/-- A tabu move from the present region of its area that would be an improvement. -/
def Aspirant (x : Search V) (m : Shift V) : Prop :=
  Forbidden len x m ∧ x.labels m.area = m.old ∧ value (moved x.labels m.area m.new) < value x.labels

/-- Some improving tabu move is tried, if there is one. -/
def Aspired (x y : Search V) : Prop :=
  (y = x ∧ ∀ m, ¬ Aspirant value len x m) ∨ ∃ m, Aspirant value len x m ∧ Sent adj m.area m.new x y

/-- The move that was best at `x` is tried again at `y` if it does no harm there. -/
def Retried (x y z : Search V) : Prop :=
  (∃ m, Best adj value len x m ∧ value (moved y.labels m.area m.new) ≤ value y.labels ∧
    Sent adj m.area m.new y z) ∨
  ((∀ m, Best adj value len x m → value y.labels < value (moved y.labels m.area m.new)) ∧ z = y)

/-- The search goes on from `x` to `y`. -/
def TabuRound (x y : Search V) : Prop :=
  Descends adj value len (noted reps x) y ∨
  Stuck adj value len (noted reps x) ∧ ¬ (noted reps x).due ∧
    ∃ z, Aspired adj value len (noted reps x) z ∧ Retried adj value len (noted reps x) z y

/-- The search ends at `x` with the clustering `L`. -/
def TabuEnd (x : Search V) (L : V → Int) : Prop :=
  Stuck adj value len (noted reps x) ∧ (noted reps x).due ∧
    ∃ z, Aspired adj value len (noted reps x) z ∧ L = z.labels

/-- From `x` the search can end with `L`. -/
inductive TabuRun : Search V → (V → Int) → Prop
  | stop {x : Search V} {L : V → Int} (h : TabuEnd adj value len reps x L) : TabuRun x L
  | next {x y : Search V} {L : V → Int} (h : TabuRound adj value len reps x y) (t : TabuRun y L) : TabuRun x L

/-- The clusterings with which the basic tabu search can end. -/
def TabuResult (init L : V → Int) : Prop := TabuRun adj value len reps ⟨init, [], [], False⟩ L

end

end Region.Spec
