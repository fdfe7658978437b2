import Mathlib.Algebra.Order.Ring.Rat
import Mathlib.Algebra.BigOperators.Group.List.Basic
import Verif.Basic
/-
The part of pulp used by the exact methods: integer variables with bounds, affine expressions,
constraints, problems, and what it means for values to be an optimal solution.
-/
namespace Region

/-- `pulp.LpAffineExpression`: a sum of coefficients times variables and a constant. -/
structure Lin (V : Type) where
  terms : List (ℚ × V)
  const : ℚ

namespace Lin
variable {V : Type}

/-- A variable used as an expression. -/
def var (v : V) : Lin V := ⟨[(1, v)], 0⟩

/-- A number used as an expression. -/
def num (c : ℚ) : Lin V := ⟨[], c⟩

instance : Add (Lin V) := ⟨fun a b => ⟨a.terms ++ b.terms, a.const + b.const⟩⟩

/-- `c * e` (and `e * c`). -/
def scale (c : ℚ) (e : Lin V) : Lin V := ⟨e.terms.map fun p => (c * p.1, p.2), c * e.const⟩

instance : HMul ℚ (Lin V) (Lin V) := ⟨scale⟩
instance : Sub (Lin V) := ⟨fun a b => a + (-1 : ℚ) * b⟩

/-- `lpSum(l)`, and `sum(l)` (which starts with the number 0). -/
def sum (l : List (Lin V)) : Lin V := l.foldr (· + ·) (num 0)

/-- The value of an expression when the variables have the values `a`. -/
def eval (e : Lin V) (a : V → ℤ) : ℚ := (e.terms.map fun p => p.1 * (a p.2 : ℚ)).sum + e.const

end Lin

/-- The comparison in a constraint. -/
inductive Sense
  | le
  | eq
  | ge

/-- `pulp.LpConstraint`: what `lhs <= rhs`, `lhs == rhs`, `lhs >= rhs` build. -/
structure Constr (V : Type) where
  lhs : Lin V
  sense : Sense
  rhs : Lin V

namespace Constr
variable {V : Type}

/-- The constraint is satisfied by the values `a`. -/
def Holds (c : Constr V) (a : V → ℤ) : Prop :=
  match c.sense with
  | .le => c.lhs.eval a ≤ c.rhs.eval a
  | .eq => c.lhs.eval a = c.rhs.eval a
  | .ge => c.lhs.eval a ≥ c.rhs.eval a

/-- The variables a constraint mentions. -/
def vars (c : Constr V) : List V := c.lhs.terms.map Prod.snd ++ c.rhs.terms.map Prod.snd

end Constr

@[inherit_doc Constr] scoped notation:50 a:51 " ≤ₗ " b:51 => Constr.mk a Sense.le b
@[inherit_doc Constr] scoped notation:50 a:51 " =ₗ " b:51 => Constr.mk a Sense.eq b
@[inherit_doc Constr] scoped notation:50 a:51 " ≥ₗ " b:51 => Constr.mk a Sense.ge b

/-- One entry of `LpVariable.dicts(name, indices, lowBound=…, upBound=…, cat=LpInteger)`. -/
structure Decl (V : Type) where
  var : V
  low : ℤ
  up : Option ℤ

/-- `pulp.LpProblem(name, LpMinimize)` after all `prob += …` statements. -/
structure Lp (V : Type) where
  decls : List (Decl V)
  objective : Lin V
  constraints : List (Constr V)

namespace Lp
variable {V : Type}

/-- The statements building the problem.  The code looks every variable up in the dicts made by
`LpVariable.dicts`; a missing one raises `KeyError`.  Building has no other effect, so it does
not matter at which lookup this happens and the check is made once. -/
def build [DecidableEq V] (decls : List (Decl V)) (objective : Lin V)
    (constraints : List (Constr V)) : Res (Lp V) :=
  let used := objective.terms.map Prod.snd ++ constraints.flatMap Constr.vars
  if used.all fun v => (decls.map Decl.var).contains v then .ok ⟨decls, objective, constraints⟩
  else .raise .keyError

/-- Integer values within the bounds that satisfy every constraint. -/
def Feasible (P : Lp V) (a : V → ℤ) : Prop :=
  (∀ d ∈ P.decls, d.low ≤ a d.var ∧ ∀ u ∈ d.up, a d.var ≤ u) ∧ ∀ c ∈ P.constraints, c.Holds a

/-- A feasible assignment with the smallest value of the objective. -/
def Optimal (P : Lp V) (a : V → ℤ) : Prop :=
  P.Feasible a ∧ ∀ b, P.Feasible b → P.objective.eval a ≤ P.objective.eval b

/-- The `varValue`s of the variables of the problem are the values `a` (`none` is `None`). -/
def Reads (P : Lp V) (a : V → ℤ) (vals : V → Option ℚ) : Prop :=
  ∀ d ∈ P.decls, vals d.var = some (a d.var : ℚ)

/-- The `varValue`s of the variables of the problem after a successful
`prob.solve`: an optimal assignment, without rounding errors. -/
def Solved (P : Lp V) (vals : V → Option ℚ) : Prop :=
  ∃ a, P.Optimal a ∧ P.Reads a vals

end Lp

end Region
