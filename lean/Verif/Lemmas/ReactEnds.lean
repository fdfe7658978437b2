import Verif.Lemmas.AzpReact
/-
Lemmas: the reactive tabu search has no loop without a bound.
-/
namespace Region

open Res

/-- The computation comes to an end: with a value or with an exception. -/
def Ends {α : Type} (x : Res α) : Prop := x.Post True False fun _ => True

theorem Ends.ok {α : Type} (a : α) : Ends (Res.ok a) := trivial

theorem Ends.raise {α : Type} (e : Exc) : Ends (Res.raise e : Res α) := trivial

theorem Ends.bind {α β : Type} {x : Res α} {f : α → Res β} (hx : Ends x) (hf : ∀ a, Ends (f a)) : Ends (x >>= f) :=
  Res.Post.bind hx fun a _ _ => hf a

theorem randrange_ends (k : Nat) (r : Rng) : Ends (randrange k r) := by
  unfold randrange
  split
  · exact .raise _
  · exact .ok _

theorem popRandomlyFrom_ends {α : Type} (lst : List α) (r : Rng) : Ends (popRandomlyFrom lst r) := by
  unfold popRandomlyFrom
  refine Ends.bind (randrange_ends _ _) fun ⟨pos, r⟩ => ?_
  dsimp only
  split
  · exact .ok _
  · exact .raise _

theorem Strat.call_ends {n q k : Nat} {ρ : Type} (expf : ℚ → ℚ) (idx : Fin k → Fin n) (attr : Fin k → ρ)
    (obj : Objective ρ) (a : Fin k) (region : Int) (L : Labels k) : ∀ (st : Strat n q) (r : Rng),
    Ends (Strat.call expf idx attr obj st a region L r)
  | .azp v, r => by
    unfold Strat.call
    split
    · exact .raise _
    · split
      · exact .ok _
      · exact .ok _
  | .sa t term m v al mm, r => by
    unfold Strat.call
    split
    · exact .raise _
    · split
      · exact .ok _
      · split
        · exact .ok _
        · exact .ok _
  | .maxp spat thr v inner, r => by
    have := Strat.call_ends expf idx attr obj a region L inner r
    unfold Strat.call
    split
    · exact .ok _
    · split
      · exact .ok _
      · exact .raise _
      · next h => rw [h] at this; exact this.elim

section
variable {σ : Type} {k : Nat} {ρ : Type} {ops : StratOps σ k} {obj : Objective ρ} {attr : Fin k → ρ} {adj : Adj k}

theorem tryMove_ends (hops : ∀ st a r L rng, Ends (ops.call st a r L rng)) (m : Move k) (s : TabuState σ k) :
    Ends (tryMove ops adj m s) := by
  unfold tryMove
  refine Ends.bind (hops _ _ _ _ _) fun ⟨al, st, rng⟩ => ?_
  dsimp only
  split
  · refine Ends.bind ?_ fun _ => .ok _
    unfold tabuMakeMove booleanAssertFeasible
    dsimp only
    rw [Res.bind_ok]
    split
    · exact .ok _
    · exact .ok _
  · exact .ok _

theorem bestMove_ends (L : Labels k) : ∀ (ms : List (Move k)) (i : Nat) (best : Option (Nat × Move k × ℚ)),
    Ends (bestMove obj attr L ms i best)
  | [], _, _ => .ok _
  | m :: ms, i, best => by
    unfold bestMove
    refine Ends.bind ?_ fun d => bestMove_ends L ms _ _
    unfold updateOf
    split
    · exact .raise _
    · exact .ok _

theorem randomMoves_ends (hops : ∀ st a r L rng, Ends (ops.call st a r L rng)) : ∀ (c : Nat) (ms : List (Move k))
    (s : TabuState σ k), Ends (randomMoves ops adj c ms s)
  | 0, _, _ => .ok _
  | c + 1, ms, s => by
    unfold randomMoves
    refine Ends.bind (popRandomlyFrom_ends _ _) fun ⟨m, ms, rng⟩ => ?_
    exact Ends.bind (tryMove_ends hops _ _) fun p => randomMoves_ends hops c _ _

theorem reactRound_ends (hops : ∀ st a r L rng, Ends (ops.call st a r L rng)) (k1 k2 : Int) (avg : ℚ)
    (s : TabuState σ k) : Ends (reactRound ops obj attr adj k1 k2 avg s) := by
  unfold reactRound
  refine Ends.bind (bestMove_ends _ _ _ _) fun best => ?_
  rcases best with _ | ⟨idx, m, d⟩
  · exact .raise _
  · refine Ends.bind (tryMove_ends hops _ _) fun ⟨_, s⟩ => ?_
    dsimp only
    repeat' split
    all_goals first
      | exact .ok _
      | exact .raise _
      | exact Ends.bind (randomMoves_ends hops _ _ _) fun _ => .ok _

theorem reactLoop_ends (hops : ∀ st a r L rng, Ends (ops.call st a r L rng)) (k1 k2 : Int) (avg : ℚ) :
    ∀ (it : Nat) (start : Option ℚ) (last : Option LastStep) (s : TabuState σ k),
    Ends (reactLoop ops obj attr adj k1 k2 avg it start last s)
  | 0, _, _, _ => .ok _
  | it + 1, start, last, s => by
    unfold reactLoop
    dsimp only
    split
    · exact Ends.bind (reactRound_ends hops _ _ _ _) fun p => reactLoop_ends hops k1 k2 avg it _ _ _
    · exact .ok _

theorem reactComponentList_ends (hops : ∀ st a r L rng, Ends (ops.call st a r L rng)) (maxIt : Nat) (k1 k2 : Int)
    (init : Labels k) (self : ReactObj σ) :
    Ends (reactComponentList ops obj attr adj maxIt k1 k2 init self) := by
  unfold reactComponentList
  split
  · exact .ok _
  · refine Ends.bind (reactLoop_ends hops _ _ _ _ _ _ _) fun ⟨last, s⟩ => ?_
    refine Ends.bind ?_ fun _ => .ok _
    unfold reactResult
    repeat' split
    all_goals first
      | exact .ok _
      | exact .raise _

end

/-- `AZPReactiveTabu.fit` ends. -/
theorem reactiveTabuFit_ends {n q : Nat} {ρ : Type} (o : MstOrder) (expf : ℚ → ℚ) (obj : Objective ρ) (maxIt : Nat)
    (k1 k2 : Int) (adj : Adj n) (attr : Fin n → ρ) (p : Int) (initial : Option (Labels n))
    (self : ReactSelf (Strat n q)) (rng : Rng) :
    Ends (reactiveTabuFit o expf obj maxIt k1 k2 adj attr p initial self rng) := by
  have := fitWith_comp (σ := ReactSelf (Strat n q)) o (adj := adj) attr
    (comp := fun idx a init at' self rng => do
      let (out, self') ← reactComponentList (Strat.ops expf (fun i => idx.get i) at' obj) obj at' a
        maxIt k1 k2 init
        ⟨self.visited, self.avg, self.repCounter, self.strat.start (obj.call init at'), rng⟩
      let labels ← fromArray idx.length out
      .ok (labels, ⟨self'.visited, self'.avg, self'.repCounter, self'.strat⟩, self'.rng))
    (S := fun _ => True) (Q := fun _ _ _ => True) (R := True) (T := False) p initial
    (fun h => absurd trivial h) (by
      intro idx init st rng _ _ _ _ _
      refine Res.Post.mono (Q := fun _ => True) ?_ id id fun _ _ => ⟨trivial, trivial⟩
      refine Ends.bind (reactComponentList_ends (fun st a r L rng => Strat.call_ends _ _ _ _ _ _ _ _ _) _ _ _ _ _)
        fun ⟨out, self'⟩ => ?_
      refine Ends.bind ?_ fun _ => .ok _
      unfold fromArray
      split
      · exact .ok _
      · split
        · exact .ok _
        · exact .raise _) self trivial rng
  exact this.mono id id fun _ _ => trivial

end Region
