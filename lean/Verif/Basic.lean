/-
Results, exceptions and random tapes shared by every model file.
-/
namespace Region

/-- The Python exceptions the modelled code can raise.  Messages are kept only where a
property talks about them. -/
inductive Exc
  | valueError (msg : String)
  | keyError
  | typeError
  | indexError
  | attributeError
  | lookupError
  | unboundLocalError
  | notImplementedError
  | runtimeError
  | assertionError
  | exception (msg : String)
  | optimizeWarning
  deriving DecidableEq, Repr

/-- Outcome of a Python call: a value, an exception, or "still running when the observation
(the fuel) ended". -/
inductive Res (α : Type)
  | ok (a : α)
  | raise (e : Exc)
  | timeout
  deriving DecidableEq, Repr

namespace Res

/-- Sequencing of Python statements. -/
@[inline] def bind {α β : Type} (x : Res α) (f : α → Res β) : Res β :=
  match x with
  | ok a => f a
  | raise e => raise e
  | timeout => timeout

instance : Monad Res where
  pure := ok
  bind := bind

@[simp] theorem pure_eq {α : Type} (a : α) : (pure a : Res α) = ok a := rfl
@[simp] theorem bind_ok {α β : Type} (a : α) (f : α → Res β) : (ok a >>= f) = f a := rfl
@[simp] theorem bind_raise {α β : Type} (e : Exc) (f : α → Res β) :
    ((raise e : Res α) >>= f) = raise e := rfl
@[simp] theorem bind_timeout {α β : Type} (f : α → Res β) :
    ((timeout : Res α) >>= f) = timeout := rfl

theorem bind_eq_ok {α β : Type} {x : Res α} {f : α → Res β} {b : β} :
    (x >>= f) = ok b ↔ ∃ a, x = ok a ∧ f a = ok b := by
  cases x <;> simp

theorem bind_eq_raise {α β : Type} {x : Res α} {f : α → Res β} {e : Exc} :
    (x >>= f) = raise e ↔ x = raise e ∨ ∃ a, x = ok a ∧ f a = raise e := by
  cases x <;> simp

theorem bind_eq_timeout {α β : Type} {x : Res α} {f : α → Res β} :
    (x >>= f) = timeout ↔ x = timeout ∨ ∃ a, x = ok a ∧ f a = timeout := by
  cases x <;> simp

/-- The call returned normally. -/
def isOk {α : Type} : Res α → Bool
  | ok _ => true
  | _ => false

/-- The call raised some exception. -/
def isRaise {α : Type} : Res α → Bool
  | raise _ => true
  | _ => false

end Res

/-- The stream of results of the pseudo random generator.  Nothing is assumed about it, so a
theorem about every tape covers every seed and every possible draw. -/
abbrev Rng := Nat → Nat

/-- The tape after one draw. -/
def Rng.next (r : Rng) : Rng := fun i => r (i + 1)

/-- `random.randrange(k)`: raises `ValueError` for `k = 0`, else some number below `k`. -/
def randrange (k : Nat) (r : Rng) : Res (Nat × Rng) :=
  if k = 0 then .raise (.valueError "empty range for randrange()")
  else .ok (r 0 % k, r.next)

end Region
