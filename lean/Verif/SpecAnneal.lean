import Verif.SpecAzp
/-
Specification: the simulated annealing variant of the automatic zoning procedure, with all choices left
open.
-/
namespace Region.Spec

/-- Where the annealing stands: the clustering, the number of worsening moves at the present temperature, and
whether a move has been made since the flag was cleared. -/
structure Annealing (V : Type) where
  labels : V → Int
  worse : Nat
  moved : Bool

/-- At temperature `t` a move raising the value by `d` is made with probability `exp (-d / t)`.  It can be made:
the random number in `[0, 1)` can be 0. -/
def MayTake (exp : ℚ → ℚ) (t d : ℚ) : Prop := t ≠ 0 ∧ 0 < exp (-d / t)

/-- It can be passed over: the random number can be `1 - 2^-53`, the largest one. -/
def MayLeave (exp : ℚ → ℚ) (t d : ℚ) : Prop := t = 0 ∨ exp (-d / t) ≤ 1 - 1 / 2 ^ 53

section
variable {V : Type} [DecidableEq V] (adj : V → V → Bool) (value : (V → Int) → ℚ) (take leave : ℚ → Prop)

/-- Region `r` takes in admissible areas.  A move which does not raise the value is never passed over for
good; one which raises it by `d` can be made if `take d` and passed over if `leave d`. -/
inductive HotGrown (r : Int) : Annealing V → Annealing V → Prop
  | stop {x : Annealing V} (h : ∀ a, Admissible adj x.labels a r →
      value x.labels < value (moved x.labels a r) ∧ leave (value (moved x.labels a r) - value x.labels)) :
      HotGrown r x x
  | better {x y : Annealing V} {a : V} (ha : Admissible adj x.labels a r)
      (hv : value (moved x.labels a r) ≤ value x.labels)
      (h : HotGrown r ⟨moved x.labels a r, x.worse, true⟩ y) : HotGrown r x y
  | worse {x y : Annealing V} {a : V} (ha : Admissible adj x.labels a r)
      (hv : value x.labels < value (moved x.labels a r))
      (ht : take (value (moved x.labels a r) - value x.labels))
      (h : HotGrown r ⟨moved x.labels a r, x.worse + 1, true⟩ y) : HotGrown r x y

/-- The regions grow one after the other. -/
inductive HotPassed : List Int → Annealing V → Annealing V → Prop
  | nil {x : Annealing V} : HotPassed [] x x
  | cons {r : Int} {rs : List Int} {x y z : Annealing V} (h : HotGrown adj value take leave r x y)
      (t : HotPassed rs y z) : HotPassed (r :: rs) x z

/-- Passes over the regions, each in any order, are repeated as long as they lower the value. -/
inductive HotRounds : Annealing V → Annealing V → Prop
  | last {rs : List Int} {x y : Annealing V} (hr : Enumerates rs x.labels)
      (h : HotPassed adj value take leave rs x y) (hv : ¬ value y.labels < value x.labels) : HotRounds x y
  | again {rs : List Int} {x y z : Annealing V} (hr : Enumerates rs x.labels)
      (h : HotPassed adj value take leave rs x y) (hv : value y.labels < value x.labels)
      (t : HotRounds y z) : HotRounds x z

end

/-- `us` contains one area of every island. -/
def OneOfEach {V : Type} (adj : V → V → Bool) (us : List V) : Prop :=
  (∀ v, ∃ u ∈ us, SameIsland adj u v) ∧ us.Pairwise fun u u' => ¬ SameIsland adj u u'

/-- The rounds take place on every island on its own; the worsening moves of all islands are counted
together.  `us` contains one area of every island. -/
def HotIslands {V : Type} [DecidableEq V] (adj : V → V → Bool)
    (value : (u : V) → (Island adj u → Int) → ℚ) (take leave : ℚ → Prop) (us : List V)
    (x y : Annealing V) : Prop :=
  ∃ (w : V → Nat) (m : V → Bool),
    (∀ u ∈ us, HotRounds (fun a b : Island adj u => adj a b) (value u) take leave
      ⟨onIsland adj u x.labels, 0, false⟩ ⟨onIsland adj u y.labels, w u, m u⟩) ∧
    y.worse = x.worse + (us.map w).sum ∧ y.moved = (x.moved || us.any m)

section
variable {V : Type} [DecidableEq (V → Int)]

/-- At one temperature the procedure (`run`) is repeated until it changes nothing, has been started `limit`
times, or `term` worsening moves have been made.  The number is the number of starts so far. -/
inductive AtTemperature (limit : Option Int) (term : Nat) (run : Annealing V → Annealing V → Prop) :
    Nat → Annealing V → Annealing V → Prop
  | stop {it : Nat} {x : Annealing V} (h : (∃ m, limit = some m ∧ m ≤ (it : Int)) ∨ term ≤ x.worse) :
      AtTemperature limit term run it x x
  | same {it : Nat} {x y : Annealing V} (hl : ∀ m, limit = some m → (it : Int) < m) (ht : x.worse < term)
      (h : run x y) (he : y.labels = x.labels) : AtTemperature limit term run it x y
  | again {it : Nat} {x y z : Annealing V} (hl : ∀ m, limit = some m → (it : Int) < m) (ht : x.worse < term)
      (h : run x y) (he : y.labels ≠ x.labels) (t : AtTemperature limit term run (it + 1) y z) :
      AtTemperature limit term run it x z

/-- `Annealed steps reps cooling stay t still seen x L`: at temperature `t`, with `still` temperatures so far
at which nothing moved and the clusterings `seen`, the annealing can go on from `x` to end with `L`.  It ends
when `still` reaches `steps` or when the clustering reached has been seen `reps` times before. -/
inductive Annealed (steps reps : Int) (cooling : ℚ) (stay : ℚ → Annealing V → Annealing V → Prop) :
    ℚ → Nat → List (V → Int) → Annealing V → (V → Int) → Prop
  | out {t : ℚ} {still : Nat} {seen : List (V → Int)} {x : Annealing V} (h : steps ≤ (still : Int)) :
      Annealed steps reps cooling stay t still seen x x.labels
  | repeated {t : ℚ} {still : Nat} {seen : List (V → Int)} {x y : Annealing V} (h : (still : Int) < steps)
      (hs : stay t ⟨x.labels, 0, x.moved⟩ y) (hr : reps ≤ (seen.count y.labels : Int)) :
      Annealed steps reps cooling stay t still seen x y.labels
  | moved {t : ℚ} {still : Nat} {seen : List (V → Int)} {x y : Annealing V} {L : V → Int}
      (h : (still : Int) < steps) (hs : stay t ⟨x.labels, 0, x.moved⟩ y)
      (hr : (seen.count y.labels : Int) < reps) (hm : y.moved = true)
      (ht : Annealed steps reps cooling stay (t * cooling) still (seen ++ [y.labels])
        ⟨y.labels, y.worse, false⟩ L) : Annealed steps reps cooling stay t still seen x L
  | still {t : ℚ} {still : Nat} {seen : List (V → Int)} {x y : Annealing V} {L : V → Int}
      (h : (still : Int) < steps) (hs : stay t ⟨x.labels, 0, x.moved⟩ y)
      (hr : (seen.count y.labels : Int) < reps) (hm : y.moved = false)
      (ht : Annealed steps reps cooling stay (t * cooling) (still + 1) (seen ++ [y.labels]) y L) :
      Annealed steps reps cooling stay t still seen x L

/-- What follows the first temperature `t`, at whose end the annealing stands at `y`. -/
def ThenAnnealed (steps reps : Int) (cooling : ℚ) (stay : ℚ → Annealing V → Annealing V → Prop) (t : ℚ)
    (seen : List (V → Int)) (y : Annealing V) (L : V → Int) : Prop :=
  (reps ≤ (seen.count y.labels : Int) ∧ L = y.labels) ∨
  ((seen.count y.labels : Int) < reps ∧ y.moved = true ∧
    Annealed steps reps cooling stay (t * cooling) 0 (seen ++ [y.labels]) ⟨y.labels, y.worse, false⟩ L) ∨
  ((seen.count y.labels : Int) < reps ∧ y.moved = false ∧
    Annealed steps reps cooling stay (t * cooling) 1 (seen ++ [y.labels]) y L)

/-- The first temperature if the procedure makes its own start: the first result is not compared with it. -/
def FromScratch (limit : Option Int) (term : Nat) (run : Annealing V → Annealing V → Prop)
    (start : (V → Int) → Prop) (moved : Bool) (y : Annealing V) : Prop :=
  (∀ m, limit = some m → 0 < m) ∧
    ∃ init, start init ∧ ∃ z, run ⟨init, 0, moved⟩ z ∧ AtTemperature limit term run 1 z y

end

end Region.Spec
