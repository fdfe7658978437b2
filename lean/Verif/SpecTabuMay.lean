import Verif.SpecTabuRun
/-
The basic tabu search with a rule that can refuse moves, as a procedure with open choices, for property C132.
-/
namespace Region.Spec

section
variable {V : Type} [LT V] [DecidableEq V]
variable (adj : V → V → Bool) (value : (V → Int) → ℚ) (may : (V → Int) → V → Int → Prop)
  (len : Option Nat) (reps : Int)

/-- The best move does no harm, the rule permits it, and it is made. -/
def MayDescend (x y : Search V) : Prop :=
  ∃ m, Best adj value len x m ∧ value (moved x.labels m.area m.new) ≤ value x.labels ∧
    may x.labels m.area m.new ∧ Sent adj m.area m.new x y

/-- The best move, if there is one, does harm or is refused.  Whether the rule would permit another move does not
matter. -/
def Halted (x : Search V) : Prop :=
  ∀ m, Best adj value len x m → value x.labels < value (moved x.labels m.area m.new) ∨
    ¬ may x.labels m.area m.new

/-- Some improving tabu move is chosen, if there is one.  Only if the rule permits it, it is tried. -/
def MayAspire (x y : Search V) : Prop :=
  (y = x ∧ ∀ m, ¬ Aspirant value len x m) ∨
  ∃ m, Aspirant value len x m ∧ (may x.labels m.area m.new → Sent adj m.area m.new x y) ∧
    (¬ may x.labels m.area m.new → y = x)

/-- The move that was best at `x` is tried again at `y` if the rule permits it there. -/
def MayRetry (x y z : Search V) : Prop :=
  (∃ m, Best adj value len x m ∧ may y.labels m.area m.new ∧ Sent adj m.area m.new y z) ∨
  ((∀ m, Best adj value len x m → ¬ may y.labels m.area m.new) ∧ z = y)

/-- The search goes on from `x` to `y`. -/
def MayRound (x y : Search V) : Prop :=
  MayDescend adj value may len (noted reps x) y ∨
  Halted adj value may len (noted reps x) ∧ ¬ (noted reps x).due ∧
    ∃ z, MayAspire adj value may len (noted reps x) z ∧ MayRetry adj value may len (noted reps x) z y

/-- The search ends at `x` with the clustering `L`. -/
def MayEnd (x : Search V) (L : V → Int) : Prop :=
  Halted adj value may len (noted reps x) ∧ (noted reps x).due ∧
    ∃ z, MayAspire adj value may len (noted reps x) z ∧ L = z.labels

/-- From `x` the search can end with `L`. -/
inductive MayRun : Search V → (V → Int) → Prop
  | stop {x : Search V} {L : V → Int} (h : MayEnd adj value may len reps x L) : MayRun x L
  | next {x y : Search V} {L : V → Int} (h : MayRound adj value may len reps x y) (t : MayRun y L) : MayRun x L

/-- The clusterings with which the basic tabu search under the rule can end. -/
def MayResult (init L : V → Int) : Prop := MayRun adj value may len reps ⟨init, [], [], False⟩ L

end

end Region.Spec
