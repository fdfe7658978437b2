import Verif.Lemmas.PublishedSeed
import Verif.Props.Published
/-
Property theorem C127: the examples of the test suite for the tabu searches.
-/
namespace Region.Props

open Region Spec

/-! ### C127, tabu searches -/

/-- The list of all nine areas is the identity. -/
private theorem on_nine {k : Nat} (hk : k = 9) (f : Fin k → Fin 9) (hf : ∀ i, (f i).val = i.val)
    (P : (k : Nat) → (Fin k → Fin 9) → Prop) (h : P 9 fun i => i) : P k f := by
  subst hk
  have : f = fun i => i := funext fun i => Fin.ext (hf i)
  rw [this]
  exact h

private theorem same_of_get {n : Nat} {L M : Labels n}
    (h : ∀ i j, L ((List.finRange n).get i) = L ((List.finRange n).get j) ↔
      M ((List.finRange n).get i) = M ((List.finRange n).get j)) : SamePartition L M := by
  intro i j
  have := h ⟨i.val, by simp⟩ ⟨j.val, by simp⟩
  simpa using this

section
variable {ρ : Type} {metric : ρ → ρ → ℚ} {attr : Fin 9 → ρ} {c : ℚ}

private theorem good_start {p : Int} (hp : p = 2) {initial : Option (Labels 9)}
    (hi : ∀ init, initial = some init → Feasible duqueAdj init 2)
    (hfree : ∀ init, initial = some init → ∀ v, init v ≠ -1) : GoodStart duqueAdj p initial := by
  subst hp
  cases initial with
  | none =>
    refine ⟨by norm_num, by norm_num, by norm_num, ?_⟩
    rw [(nComponents_eq_one_iff _).2 duque_connected]
    norm_num
  | some init =>
    exact ⟨(hi _ rfl).1, by rw [(hi _ rfl).2]; rfl, fun v => ⟨v, .refl, hfree _ rfl v⟩⟩

/-- C127 for the basic tabu search: with any length of the tabu list and any number of repetitions,
with or without a feasible start and whatever the draws, the expected regions are returned. -/
theorem c127_basic {q : Nat} (o : MstOrder) (expf : ℚ → ℚ) (hd : Dissimilarity metric)
    (h : DuqueLike (fun i j => metric (attr i) (attr j)) c) {initial : Option (Labels 9)}
    (hi : ∀ init, initial = some init → Feasible duqueAdj init 2)
    (hfree : ∀ init, initial = some init → ∀ v, init v ≠ -1) (len : Option Nat) (reps : Int) (fuel : Nat)
    (hf : 2 ^ 9 * (reps.toNat + 1) < fuel) (v : ℚ) (rng : Rng) :
    ∃ L st' rng', basicTabuFit (q := q) o expf (pairwise metric) fuel len reps duqueAdj attr 2 initial
        (.azp v) rng = .ok (L, st', rng') ∧ SamePartition L duqueLabels := by
  have := fitWith_one (σ := Strat 9 q) o duque_connected (attr := attr)
    (comp := fun idx a init at' st rng =>
      basicComponent (Strat.ops expf (fun i => idx.get i) at' (pairwise metric)) (pairwise metric)
        at' a len reps fuel init (st.start ((pairwise metric).call init at')) rng)
    (R := False) (T := False)
    (Q := fun idx out => ∀ i j, out i = out j ↔ duqueLabels (idx.get i) = duqueLabels (idx.get j))
    (good_start rfl hi hfree) hfree (.azp v) rng (by
      intro lab hlab rng
      refine on_nine (by simp) (fun i => (List.finRange 9).get i) (by simp)
        (fun k f => (basicComponent (Strat.ops (q := q) expf f (fun i => attr (f i)) (pairwise metric))
          (pairwise metric) (fun i => attr (f i)) (fun i j => duqueAdj (f i) (f j)) len reps fuel
          (fun i => lab (f i)) ((Strat.azp v : Strat 9 q).start ((pairwise metric).call (fun i => lab (f i))
            fun i => attr (f i))) rng).Post False False
          fun q => ∀ i j, q.1 i = q.1 j ↔ duqueLabels (f i) = duqueLabels (f j)) ?_
      exact duque_basic expf hd h (fun i => i) ⟨hlab.1, by exact_mod_cast hlab.2.1⟩ len reps hf _ rng)
  obtain ⟨⟨L, st', rng'⟩, h1, h2⟩ := this.total
  exact ⟨L, st', rng', h1, same_of_get h2⟩

/-- The data of the tests and a start that is not the expected result. -/
example : Dissimilarity (manhattan (m := 1)) ∧
    DuqueLike (fun i j => manhattan (column duqueAttr i) (column duqueAttr j)) 1 ∧
    Feasible duqueAdj leftColumn 2 ∧ (∀ v, leftColumn v ≠ -1) ∧ ¬ SamePartition leftColumn duqueLabels :=
  ⟨manhattan_dissimilarity, duqueLike_single, leftColumn_feasible, leftColumn_free,
    by unfold SamePartition; decide +kernel⟩

/-- What `reactiveTabuFit` does with a component. -/
private def reactOne {n q k : Nat} (expf : ℚ → ℚ) (obj : Objective ρ) (maxIt : Nat) (k1 k2 : Int)
    (f : Fin k → Fin n) (a : Adj k) (init : Labels k) (at' : Fin k → ρ) (self : ReactSelf (Strat n q))
    (rng : Rng) : Res (Labels k × ReactSelf (Strat n q) × Rng) := do
  let (out, self') ← reactComponentList (Strat.ops expf f at' obj) obj at' a maxIt k1 k2 init
    ⟨self.visited, self.avg, self.repCounter, self.strat.start (obj.call init at'), rng⟩
  let labels ← fromArray k out
  .ok (labels, ⟨self'.visited, self'.avg, self'.repCounter, self'.strat⟩, self'.rng)

/-- The reactive tabu search with a fresh object: what holds of the descents holds of the result. -/
private theorem reactive_fit {q : Nat} (o : MstOrder) (expf : ℚ → ℚ) (hd : Dissimilarity metric)
    (h : DuqueLike (fun i j => metric (attr i) (attr j)) c) {initial : Option (Labels 9)}
    (hi : ∀ init, initial = some init → Feasible duqueAdj init 2)
    (hfree : ∀ init, initial = some init → ∀ v, init v ≠ -1) (maxIt : Nat) (hm : 2 ≤ maxIt)
    (k1 k2 : Int) (hk1 : 1 ≤ k1) (v : ℚ) (rng : Rng) {X : Prop}
    (hX : ∀ lab, StartsFrom duqueAdj 2 initial lab → ∀ out j, j < maxIt →
      Descent duqueAdj (fun L => withinPairs L fun i j => metric (attr i) (attr j)) j lab out →
      (SamePartition out duqueLabels ∨ (j + 1 = maxIt ∧ ∃ last, Steepest duqueAdj
        (fun L => withinPairs L fun i j => metric (attr i) (attr j)) out last)) → (X ↔ SamePartition out duqueLabels)) :
    ∃ L self' rng', reactiveTabuFit (q := q) o expf (pairwise metric) maxIt k1 k2 duqueAdj attr 2 initial
        (.fresh (.azp v)) rng = .ok (L, self', rng') ∧ (X ↔ SamePartition L duqueLabels) := by
  have := fitWith_one (σ := ReactSelf (Strat 9 q)) o duque_connected (attr := attr)
    (comp := fun idx a init at' self rng =>
      reactOne expf (pairwise metric) maxIt k1 k2 (fun i => idx.get i) a init at' self rng)
    (R := False) (T := False)
    (Q := fun idx out => X ↔ ∀ i j, out i = out j ↔ duqueLabels (idx.get i) = duqueLabels (idx.get j))
    (good_start rfl hi hfree) hfree (.fresh (.azp v)) rng (by
      intro lab hlab rng
      refine on_nine (by simp) (fun i => (List.finRange 9).get i) (by simp)
        (fun k f => (reactOne (q := q) expf (pairwise metric) maxIt k1 k2 f
          (fun i j => duqueAdj (f i) (f j)) (fun i => lab (f i)) (fun i => attr (f i))
          (.fresh (.azp v)) rng).Post False False
          fun q => X ↔ ∀ i j, q.1 i = q.1 j ↔ duqueLabels (f i) = duqueLabels (f j)) ?_
      have hlab' : Feasible duqueAdj lab 2 := ⟨hlab.1, by exact_mod_cast hlab.2.1⟩
      obtain ⟨out, self', h1, j, hj, h2, h3⟩ := duque_reactive (q := q) expf hd h (fun i => i) hlab' k1 k2
        hk1 hm 1 1 ((pairwise metric).call lab attr) rng
      refine Res.Post.of_ok (a := (out, ⟨self'.visited, self'.avg, self'.repCounter, self'.strat⟩,
        self'.rng)) ?_ (hX lab hlab out j hj h2 h3)
      unfold reactOne
      refine Eq.trans (congrArg (fun r => Res.bind r _) h1) ?_
      dsimp only [Res.bind]
      rw [fromArray_arrayList]
      rfl)
  obtain ⟨⟨L, st', rng'⟩, h1, h2⟩ := this.total
  refine ⟨L, st', rng', h1, h2.trans ⟨same_of_get, fun h i j => h _ _⟩⟩

/-- C127 for the reactive tabu search on a fresh object with `k1 ≥ 1` and at least six iterations. -/
theorem c127_reactive {q : Nat} (o : MstOrder) (expf : ℚ → ℚ) (hd : Dissimilarity metric)
    (h : DuqueLike (fun i j => metric (attr i) (attr j)) c) {initial : Option (Labels 9)}
    (hi : ∀ init, initial = some init → Feasible duqueAdj init 2)
    (hfree : ∀ init, initial = some init → ∀ v, init v ≠ -1) (maxIt : Nat) (hm : 6 ≤ maxIt)
    (k1 k2 : Int) (hk1 : 1 ≤ k1) (v : ℚ) (rng : Rng) :
    ∃ L self' rng', reactiveTabuFit (q := q) o expf (pairwise metric) maxIt k1 k2 duqueAdj attr 2 initial
        (.fresh (.azp v)) rng = .ok (L, self', rng') ∧ SamePartition L duqueLabels := by
  obtain ⟨L, self', rng', h1, h2⟩ := reactive_fit (q := q) o expf hd h hi hfree maxIt (by omega) k1 k2 hk1 v
    rng (X := True) (by
      intro lab hlab out j hj h1 h2
      refine ⟨fun _ => h2.resolve_right ?_, fun _ => trivial⟩
      rintro ⟨rfl, last, h3⟩
      have := duque_steps h ⟨hlab.1, by exact_mod_cast hlab.2.1⟩ (.step h1 h3)
      omega)
  exact ⟨L, self', rng', h1, h2.1 trivial⟩

private theorem reactive_never {q : Nat} (o : MstOrder) (expf : ℚ → ℚ) (hd : Dissimilarity metric)
    (h : DuqueLike (fun i j => metric (attr i) (attr j)) c) {init : Labels 9}
    (hi : Feasible duqueAdj init 2) (hfree : ∀ v, init v ≠ -1) (maxIt : Nat) (hm : 2 ≤ maxIt)
    (hfar : ∀ out j, j < maxIt →
      Descent duqueAdj (fun L => withinPairs L fun i j => metric (attr i) (attr j)) j init out →
      ¬ SamePartition out duqueLabels)
    (k1 k2 : Int) (hk1 : 1 ≤ k1) (v : ℚ) (rng : Rng) :
    ∃ L self' rng', reactiveTabuFit (q := q) o expf (pairwise metric) maxIt k1 k2 duqueAdj attr 2
        (some init) (.fresh (.azp v)) rng = .ok (L, self', rng') ∧
      ¬ SamePartition L duqueLabels := by
  obtain ⟨L, self', rng', h1, h2⟩ := reactive_fit (q := q) o expf hd h (initial := some init)
    (by intro _ h; cases h; exact hi) (by intro _ h; cases h; exact hfree) maxIt hm k1 k2 hk1 v rng
    (X := False) (by
      rintro lab ⟨-, -, rfl⟩ out j hj h1 -
      exact ⟨False.elim, hfar out j hj h1⟩)
  exact ⟨L, self', rng', h1, h2.2⟩

/-- C127 is false for the reactive tabu search with `max_iterations=5`, the value in the tests: from a
feasible start, the left column against the rest, no seed leads to the expected regions. -/
theorem c127_reactive_wrong {q : Nat} (o : MstOrder) (expf : ℚ → ℚ) (hd : Dissimilarity metric)
    (h : DuqueLike (fun i j => metric (attr i) (attr j)) c) (k1 k2 : Int) (hk1 : 1 ≤ k1) (v : ℚ) (rng : Rng) :
    Feasible duqueAdj leftColumn 2 ∧
    ∃ L self' rng', reactiveTabuFit (q := q) o expf (pairwise metric) 5 k1 k2 duqueAdj attr 2
        (some leftColumn) (.fresh (.azp v)) rng = .ok (L, self', rng') ∧
      ¬ SamePartition L duqueLabels :=
  ⟨leftColumn_feasible, reactive_never o expf hd h leftColumn_feasible leftColumn_free 5 (by omega)
    (fun _ _ hj hd => duque_too_far leftColumn_mask h hj hd) k1 k2 hk1 v rng⟩

/-- C127 is false for the reactive tabu search with the parameters of the tests: there is a seed for which
`fit` with two regions and no initial labels does not return the expected regions. -/
theorem c127_reactive_seed {q : Nat} (expf : ℚ → ℚ) (hd : Dissimilarity metric)
    (h : DuqueLike (fun i j => metric (attr i) (attr j)) c) (k1 k2 : Int) (hk1 : 1 ≤ k1) (v : ℚ) :
    ∃ rng L self' rng', reactiveTabuFit (q := q) .rowMajor expf (pairwise metric) 5 k1 k2 duqueAdj attr 2 none
        (.fresh (.azp v)) rng = .ok (L, self', rng') ∧ ¬ SamePartition L duqueLabels := by
  obtain ⟨lab, -, h1, h2, h3, h4, h5⟩ := fitWith_none_reaches (σ := ReactSelf (Strat 9 q)) .rowMajor
    duque_connected (attr := attr) (comp := fun idx a init at' self rng =>
      reactOne expf (pairwise metric) 5 k1 k2 (fun i => idx.get i) a init at' self rng) (p := 2)
    (by norm_num) (by norm_num) (by norm_num) (by norm_num) columnLinks_sub (by decide +kernel)
    (.fresh (.azp v))
  have hsame : SamePartition lab leftColumn := fun u v => (h4 u v).trans (columnLinks_linked u v).symm
  obtain ⟨r0, hr⟩ := h5 fun _ => 0
  obtain ⟨L, self', rng', e1, e2⟩ := reactive_never (q := q) .rowMajor expf hd h
    ⟨h1, by exact_mod_cast h2⟩ (fun v => by have := h3 v; omega) 5 (by omega)
    (fun _ _ hj hd => duque_too_far' h hj hsame hd) k1 k2 hk1 v fun _ => 0
  exact ⟨r0, L, self', rng', hr.trans e1, e2⟩

/-- The hypotheses about the dissimilarities are met by the data of the tests. -/
example : Dissimilarity (manhattan (m := 1)) ∧
    DuqueLike (fun i j => manhattan (column duqueAttr i) (column duqueAttr j)) 1 :=
  ⟨manhattan_dissimilarity, duqueLike_single⟩

end

end Region.Props
