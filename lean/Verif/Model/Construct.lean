import Verif.Model.AzpSa
import Verif.Model.AzpTabu
/-
Model of the constructors of `/repo/region/p_regions/azp.py` and of the registration of observers in
`/repo/region/p_regions/azp_util.py`.
-/
namespace Region

/-- The argument `allow_move_strategy` of `AZP.__init__`. -/
inductive StrategyArg (σ : Type)
  | none
  | strategy (s : σ)                                    -- an instance of `AllowMoveStrategy`
  | other

/-- The choice made by `AZP.__init__` (azp.py 48-54).  The objective value of a new `AllowMoveAZP` is
set by `start_new_component` before it is read; 0 stands for it. -/
def newAzpStrategy {n q : Nat} : StrategyArg (Strat n q) → Res (Strat n q)
  | .strategy s => .ok s
  | .none => .ok (.azp 0)
  | .other => .raise (.valueError
      "The allow_move_strategy argument must be either None, or an instance of AllowMoveStrategy.")

/-- A Python object passed as an observer: a callable, or something else. -/
inductive ObserverArg (φ : Type)
  | callable (f : φ)
  | other

/-- `register_sa_moves_term` and `register_move_made` (azp_util.py 106-129) on one of the lists of
observers. -/
def registerObserver {φ : Type} (observers : List φ) : ObserverArg φ → Res (List φ)
  | .callable f => .ok (observers ++ [f])
  | .other => .raise (.valueError "The observer_func must be callable.")

/-- `notify_min_sa_moves` and `notify_move_made` (azp_util.py 131-137) for observers that change a state
(the owner's flags). -/
def notifyObservers {τ : Type} (observers : List (τ → τ)) (t : τ) : τ :=
  observers.foldl (fun t f => f t) t

end Region
