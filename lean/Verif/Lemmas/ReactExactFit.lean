import Verif.Lemmas.ReactExact
import Verif.Lemmas.OneIsland
import Verif.Lemmas.MaxPReact
/-
`fit` on a connected map is its routine for one component; the reactive tabu search.
-/
namespace Region

open Spec Props

section
variable {σ ρ : Type} {n : Nat} {adj : Adj n}

theorem scatter_finRange (out : Labels (List.finRange n).length) (base : Labels n) :
    scatter (List.finRange n) out base = fun v => out (Fin.cast (List.length_finRange).symm v) := by
  funext v
  have := scatter_mem (List.nodup_finRange n) out base (Fin.cast (List.length_finRange).symm v)
  simpa using this

/-- `fit` from a given start on a connected map is one call of the routine for a component. -/
theorem fitWith_connected (o : MstOrder) (hcon : Connected adj) {attr : Fin n → ρ} {comp : CompFn σ n ρ} {p : Int}
    {init : Labels n} (hc : AllContiguous adj init) (hn : (numRegions init : Int) = p) (hm : ∀ v, init v ≠ -1)
    (st : σ) (rng : Rng) :
    fitWith o adj attr comp p (some init) st rng =
      (comp (List.finRange n) (subAdj adj (List.finRange n)) (fun i => init ((List.finRange n).get i))
        (fun i => attr ((List.finRange n).get i)) st rng >>= fun q =>
        .ok (fun v => q.1 (Fin.cast (List.length_finRange).symm v), q.2)) := by
  have h1 := (nComponents_eq_one_iff _).2 hcon
  have hsep : separateComponents adj init = [init] := by
    rw [separateComponents_eq, h1]
    change [compArray adj init 0] = _
    rw [compArray_connected hcon]
  unfold fitWith
  dsimp only
  rw [(c04_assert_feasible_ok init adj (some p)).2 ⟨hc, by rintro _ ⟨⟩; exact hn⟩, Res.bind_ok, hsep]
  change fitLoop adj attr comp [fun r => .ok (.array init, r)] _ st rng = _
  unfold fitLoop
  rw [Res.bind_ok]
  dsimp only
  have hstep : fitStep adj attr comp init (fun _ => -1) st rng =
      (comp (List.finRange n) (subAdj adj (List.finRange n)) (fun i => init ((List.finRange n).get i))
        (fun i => attr ((List.finRange n).get i)) st rng >>= fun q =>
        .ok (fun v => q.1 (Fin.cast (List.length_finRange).symm v), q.2)) := by
    have : fitStep adj attr comp init (fun _ => -1) st rng =
        (comp (shown init) (subAdj adj (shown init)) (fun i => init ((shown init).get i))
          (fun i => attr ((shown init).get i)) st rng >>= fun q => .ok (scatter (shown init) q.1 fun _ => -1, q.2)) := rfl
    rw [this, shown_all hm]
    simp only [scatter_finRange]
  rw [hstep]
  generalize comp (List.finRange n) _ _ _ st rng = r
  rcases r with ⟨L, s, r⟩ | e | _ <;> rfl

/-- What `reactiveTabuFit` does with a component. -/
def reactComp {q k : Nat} (expf : ℚ → ℚ) (obj : Objective ρ) (maxIt : Nat) (k1 k2 : Int)
    (f : Fin k → Fin n) (a : Adj k) (init : Labels k) (at' : Fin k → ρ) (self : ReactSelf (Strat n q))
    (rng : Rng) : Res (Labels k × ReactSelf (Strat n q) × Rng) := do
  let (out, self') ← reactComponentList (Strat.ops expf f at' obj) obj at' a maxIt k1 k2 init
    ⟨self.visited, self.avg, self.repCounter, self.strat.start (obj.call init at'), rng⟩
  let labels ← fromArray k out
  .ok (labels, ⟨self'.visited, self'.avg, self'.repCounter, self'.strat⟩, self'.rng)

theorem reactFit_connected {q : Nat} (o : MstOrder) (expf : ℚ → ℚ) (obj : Objective ρ) (maxIt : Nat) (k1 k2 : Int)
    (hcon : Connected adj) (attr : Fin n → ρ) {p : Int} {init : Labels n} (hc : AllContiguous adj init)
    (hn : (numRegions init : Int) = p) (hm : ∀ v, init v ≠ -1) (self : ReactSelf (Strat n q)) (rng : Rng) :
    reactiveTabuFit o expf obj maxIt k1 k2 adj attr p (some init) self rng =
      reactComp expf obj maxIt k1 k2 id adj init attr self rng := by
  unfold reactiveTabuFit
  rw [fitWith_connected o hcon hc hn hm]
  change (reactComp expf obj maxIt k1 k2 (fun i => (List.finRange n).get i) _ _ _ self rng >>= _) = _
  have key : ∀ {k : Nat} (hk : k = n) (f : Fin k → Fin n), (∀ i, (f i).val = i.val) →
      (reactComp expf obj maxIt k1 k2 f (fun i j => adj (f i) (f j)) (fun i => init (f i)) (fun i => attr (f i)) self rng
        >>= fun z => (.ok (fun v => z.1 (Fin.cast hk.symm v), z.2) : Res (Labels n × ReactSelf (Strat n q) × Rng))) =
      reactComp expf obj maxIt k1 k2 id adj init attr self rng := by
    intro k hk f hf
    subst hk
    obtain rfl : f = id := funext fun i => Fin.ext (hf i)
    change (reactComp expf obj maxIt k1 k2 id adj init attr self rng >>= _) = _
    generalize reactComp expf obj maxIt k1 k2 id adj init attr self rng = r
    rcases r with ⟨L, s, r⟩ | e | _ <;> rfl
  exact key (List.length_finRange) (fun i => (List.finRange n).get i) (by simp)

variable {q : Nat} {obj : Objective ρ} {expf : ℚ → ℚ} {attr : Fin n → ρ} {k1 k2 : Int}

theorem reactComp_exact (he : obj.Exact) (ht : obj.Total)
    (hs : Spec.Symmetric adj) (hk1 : 1 ≤ k1) {init : Labels n} (hc : AllContiguous adj init)
    (hn : numRegions init ≠ 1) {maxIt : Nat} (hm : 1 ≤ maxIt) (v : ℚ) (rng : Rng) :
    (reactComp (q := q) expf obj maxIt k1 k2 id adj init attr (.fresh (.azp v)) rng =
        .raise .attributeError ∧ ReactFails adj (fun L => obj.call L attr) maxIt init) ∨
    ∃ out self' rng', reactComp (q := q) expf obj maxIt k1 k2 id adj init attr (.fresh (.azp v)) rng =
        .ok (out, self', rng') ∧ ReactResult adj (fun L => obj.call L attr) maxIt init out := by
  rcases reactComponentList_exact (q := q) (expf := expf) (idx := (id : Fin n → Fin n)) (attr := attr) (k2 := k2) he ht
    hs hk1 hc hn hm ⟨[], 1, 1, (Strat.azp v).start (obj.call init attr), rng⟩ rfl ⟨_, rfl⟩ with
    ⟨h1, h2⟩ | ⟨out, self', h1, h2⟩
  · left
    refine ⟨?_, h2⟩
    unfold reactComp
    exact congrArg (fun r => Res.bind r _) h1
  · right
    refine ⟨out, ⟨self'.visited, self'.avg, self'.repCounter, self'.strat⟩, self'.rng, ?_, h2⟩
    unfold reactComp
    refine Eq.trans (congrArg (fun r => Res.bind r _) h1) ?_
    dsimp only [Res.bind]
    rw [fromArray_arrayList]
    rfl

end

end Region
