import Mathlib.Algebra.Order.BigOperators.Group.Finset
import Verif.Lemmas.AzpOpt
import Verif.Props.Azp
/-
Property theorems C23, C26, C27: the objective during AZP.
-/
namespace Region.Props

open Region Spec Relation

/-! ### C23 -/

/-- C23 on one component: with the default strategy, the result is reached by admissible moves none of
which worsens the objective; in particular its objective is not larger than the initial one, and it is
smaller as soon as one of the moves improved. -/
theorem c23_never_worse {n q : Nat} {ρ : Type} (expf : ℚ → ℚ) {obj : Objective ρ}
    (he : obj.Exact) (ht : obj.Total) (idx : List (Fin n)) (hk : idx ≠ []) {adj : Adj idx.length}
    (hs : Symmetric adj) (init : Labels idx.length) (hc : AllContiguous adj init)
    (attr : Fin idx.length → ρ) (fuel : Nat) (v : ℚ) (rng : Rng) {out : Labels idx.length}
    {st' : Strat n q} {rng' : Rng}
    (h : azpComp expf obj fuel idx adj init attr (.azp v) rng = .ok (out, st', rng')) :
    ReflTransGen (fun L L' => ∃ a r, Admissible adj L a r ∧ L' = moved L a r ∧
      obj.call L' attr ≤ obj.call L attr) init out ∧
    obj.call out attr ≤ obj.call init attr := by
  have := (azp_component (q := q) expf (fun i => idx.get i) he ht hs (List.length_pos_iff.2 hk) hc
    attr fuel rng).ok h
  exact ⟨this.2.2.1, goodMoves_le this.2.2.1⟩

/-- If the routine does not worsen the objective on any component, the total over the map does not get
worse. -/
theorem fitted_pairwise_le {n : Nat} {ρ : Type} (metric : ρ → ρ → ℚ) {adj : Adj n} (attr : Fin n → ρ)
    {lab labels : Labels n} (hc : AllContiguous adj lab)
    (hf : Fitted (fun idx init out => KeepsRegions (subAdj adj idx) init out ∧
      (pairwise metric).call out (fun i => attr (idx.get i)) ≤
        (pairwise metric).call init (fun i => attr (idx.get i))) (separateComponents adj lab)
      (fun _ => -1) labels) :
    FitOk adj lab labels ∧ (pairwise metric).call labels attr ≤ (pairwise metric).call lab attr := by
  obtain ⟨h1, h2⟩ := fit_result hf
  have hfit := fitOk_of_keeps hc h1 fun c hc => (h2 c hc).1
  refine ⟨hfit, ?_⟩
  rw [c18_pairwise, c18_pairwise,
    withinPairs_split adj lab labels _ hfit.frozen fun u v huv => pathIn_sameIsland
      ((hfit.contiguous u).2 u rfl v huv.symm),
    withinPairs_split adj lab lab _ (fun _ => Iff.rfl) fun u v huv => pathIn_sameIsland
      ((hc u).2 u rfl v huv.symm)]
  have : ∀ c ∈ Finset.range (nComponents adj),
      withinPairs (fun i => labels ((shown (compArray adj lab c)).get i))
        (fun i j => metric (attr ((shown (compArray adj lab c)).get i))
          (attr ((shown (compArray adj lab c)).get j))) ≤
      withinPairs (fun i => lab ((shown (compArray adj lab c)).get i))
        (fun i j => metric (attr ((shown (compArray adj lab c)).get i))
          (attr ((shown (compArray adj lab c)).get j))) := by
    intro c hc
    have := (h2 c (by simpa using hc)).2
    rw [c18_pairwise, c18_pairwise] at this
    exact this
  have := Finset.sum_le_sum this
  linarith

/-- C23 for `fit` and the pairwise objective: the total over the whole map never gets worse. -/
theorem c23_fit_pairwise {n q : Nat} {ρ : Type} (o : MstOrder) (expf : ℚ → ℚ)
    {metric : ρ → ρ → ℚ} (hm : ∀ x y, metric x y = metric y x) (h0 : ∀ x, metric x x = 0)
    {adj : Adj n} (hs : Symmetric adj) (attr : Fin n → ρ) (p : Int) (init : Labels n) (fuel : Nat)
    (v : ℚ) (rng : Rng) {labels : Labels n} {st' : Strat n q} {rng' : Rng}
    (h : azpFit o expf (pairwise metric) fuel adj attr p (some init) (.azp v) rng =
      .ok (labels, st', rng')) :
    (pairwise metric).call labels attr ≤ (pairwise metric).call init attr := by
  have he : (pairwise metric).Exact := pairwise_exact hm h0
  have ht : (pairwise metric).Total := pairwise_total metric
  have := fitWith_post (σ := Strat n q) o (adj := adj) (attr := attr)
    (comp := azpComp expf (pairwise metric) fuel) (S := fun st => ∃ v, st = .azp v)
    (Q := fun idx init out => KeepsRegions (subAdj adj idx) init out ∧
      (pairwise metric).call out (fun i => attr (idx.get i)) ≤
        (pairwise metric).call init (fun i => attr (idx.get i))) (R := True) (T := True) p
    (some init) (fun h => absurd trivial h) (by
      rintro lab hlab c hc _ rng ⟨v, rfl⟩
      have hcont := comp_contiguous hlab.1 c
      have he' : (fun i => compArray adj lab c ((shown (compArray adj lab c)).get i)) =
          fun i => lab ((shown (compArray adj lab c)).get i) := by
        funext i
        have hi := mem_shown.1 (List.get_mem (shown (compArray adj lab c)) i)
        have := (compArray_ne.1 hi).1
        change (if compLabels adj ((shown (compArray adj lab c)).get i) = c then _ else _) = _
        rw [if_pos this]
      rw [he']
      generalize shown (compArray adj lab c) = idx at hcont ⊢
      by_cases hk : 0 < idx.length
      · apply (azp_component (q := q) expf (fun i => idx.get i) he ht (subAdj_symm hs idx) hk hcont
          (fun i => attr (idx.get i)) fuel rng).mono (fun _ => trivial) (fun _ => trivial)
        rintro ⟨out, st, rng⟩ ⟨h1, h2, h3, _⟩
        have h4 := goodMoves_le h3
        exact ⟨⟨h2, h4⟩, _, h1⟩
      · unfold azpComp
        rw [azpComponent_empty _ _ hk]
        exact trivial) (.azp v) ⟨v, rfl⟩ rng
  obtain ⟨_, lab, ⟨hc1, _, rfl⟩, hf⟩ := this.ok h
  exact (fitted_pairwise_le metric attr hc1 hf).2

example : (match azpFit (q := 0) .rowMajor (fun _ => 0) (pairwise manhattan) 20 path4 (ramp 4) 2
      (some ![0, 1, 1, 1]) (.azp 0) fun _ => 0 with
    | .ok (L, _, _) => (pairwise manhattan).call L (ramp 4)
    | _ => 100) = 2 ∧ (pairwise manhattan).call ![0, 1, 1, 1] (ramp 4) = 4 := by decide +kernel

/-! ### C26 -/

/-- C26 (part): the result is locally optimal, unless the last pass made value-neutral moves.  Missing:
the second case, in which local optimality can fail (`c26_not_local_optimum`). -/
theorem c26_local_optimum_partial {n q : Nat} {ρ : Type} (expf : ℚ → ℚ) {obj : Objective ρ}
    (he : obj.Exact) (ht : obj.Total) (idx : List (Fin n)) (hk : idx ≠ []) {adj : Adj idx.length}
    (hs : Symmetric adj) (init : Labels idx.length) (hc : AllContiguous adj init)
    (attr : Fin idx.length → ρ) (fuel : Nat) (v : ℚ) (rng : Rng) {out : Labels idx.length}
    {st' : Strat n q} {rng' : Rng}
    (h : azpComp expf obj fuel idx adj init attr (.azp v) rng = .ok (out, st', rng')) :
    (∀ a r, Admissible adj out a r → obj.call out attr ≤ obj.call (moved out a r) attr) ∨
    ∃ L0, TransGen (fun L L' => ∃ a r, Admissible adj L a r ∧ L' = moved L a r ∧
      obj.call L' attr = obj.call L attr) L0 out := by
  have := (azp_component (q := q) expf (fun i => idx.get i) he ht hs (List.length_pos_iff.2 hk) hc
    attr fuel rng).ok h
  rcases this.2.2.2.1 with h | ⟨L0, _, h⟩
  · exact .inl h
  · exact .inr ⟨L0, h⟩

/-- C26 (part): if no admissible move leaves the objective exactly unchanged, the result is locally
optimal.  Missing: objectives with ties. -/
theorem c26_no_ties_partial {n q : Nat} {ρ : Type} (expf : ℚ → ℚ) {obj : Objective ρ}
    (he : obj.Exact) (ht : obj.Total) (idx : List (Fin n)) (hk : idx ≠ []) {adj : Adj idx.length}
    (hs : Symmetric adj) (init : Labels idx.length) (hc : AllContiguous adj init)
    (attr : Fin idx.length → ρ) (fuel : Nat) (v : ℚ) (rng : Rng) {out : Labels idx.length}
    {st' : Strat n q} {rng' : Rng}
    (hties : ∀ L a r, Admissible adj L a r → obj.call (moved L a r) attr ≠ obj.call L attr)
    (h : azpComp expf obj fuel idx adj init attr (.azp v) rng = .ok (out, st', rng')) :
    ∀ a r, Admissible adj out a r → obj.call out attr < obj.call (moved out a r) attr := by
  have h1 := c26_local_optimum_partial expf he ht idx hk hs init hc attr fuel v rng h
  rcases h1 with h1 | ⟨L0, h1⟩
  · intro a r hm
    exact lt_of_le_of_ne (h1 a r hm) (Ne.symm (hties out a r hm))
  · exfalso
    have : ∀ L L', TransGen (fun L L' => ∃ a r, Admissible adj L a r ∧ L' = moved L a r ∧
      obj.call L' attr = obj.call L attr) L L' → False := by
      intro L L' h
      induction h with
      | single h => obtain ⟨a, r, e1, rfl, e3⟩ := h; exact hties _ a r e1 e3
      | tail _ _ ih => exact ih
    exact this _ _ h1

/-- C26: in any case, for at least one region (the last one treated) no admissible move into it is
even neutral. -/
theorem c26_one_region_exhausted {n q : Nat} {ρ : Type} (expf : ℚ → ℚ) {obj : Objective ρ}
    (he : obj.Exact) (ht : obj.Total) (idx : List (Fin n)) (hk : idx ≠ []) {adj : Adj idx.length}
    (hs : Symmetric adj) (init : Labels idx.length) (hc : AllContiguous adj init)
    (attr : Fin idx.length → ρ) (fuel : Nat) (v : ℚ) (rng : Rng) {out : Labels idx.length}
    {st' : Strat n q} {rng' : Rng}
    (h : azpComp expf obj fuel idx adj init attr (.azp v) rng = .ok (out, st', rng')) :
    ∃ r, (∃ i, init i = r) ∧
      ∀ a, Admissible adj out a r → obj.call out attr < obj.call (moved out a r) attr :=
  ((azp_component (q := q) expf (fun i => idx.get i) he ht hs (List.length_pos_iff.2 hk) hc
    attr fuel rng).ok h).2.2.2.2

/-- C26 is false in general: on the path 0-1-2-3 with attributes 0, 1, 0, 0 and initial labels
0, 0, 2, 1, AZP (pairwise manhattan objective) can return 0, 2, 2, 1 with objective 1, although moving
area 2 to region 1 is admissible and gives 0. -/
theorem c26_not_local_optimum :
    (match azpFit (q := 0) .rowMajor (fun _ => 0) (pairwise manhattan) 20 path4
        (column ![0, 1, 0, 0]) 3 (some ![0, 0, 2, 1]) (.azp 0) fun _ => 0 with
      | .ok (L, _, _) => arrayList L
      | _ => []) = [0, 2, 2, 1] ∧
    Admissible path4 (![0, 2, 2, 1] : Labels 4) 2 1 ∧
    (pairwise manhattan).call ![0, 2, 2, 1] (column ![0, 1, 0, 0]) = 1 ∧
    (pairwise manhattan).call (moved ![0, 2, 2, 1] 2 1) (column ![0, 1, 0, 0]) = 0 := by
  refine ⟨by decide +kernel, ⟨by decide, ⟨3, by decide, by left; decide⟩, ⟨1, by decide, by decide⟩,
    ?_⟩, by decide +kernel, by decide +kernel⟩
  rw [← isConnected_subAdjWo]
  decide +kernel

/-! ### C27 -/

/-- C27: `start_new_component` makes `objective_val` the objective of the initial labels (also that of
every decorated object). -/
theorem c27_start {n q k : Nat} {ρ : Type} (obj : Objective ρ) (attr : Fin k → ρ)
    (init : Labels k) (st : Strat n q) :
    (st.start (obj.call init attr)).objVal = obj.call init attr := by
  cases st <;> rfl

/-- C27: each call of the default or the simulated-annealing strategy that returns keeps
`objective_val` equal to the objective of the labels, where a positive answer means that the move is
made. -/
theorem c27_call {n q k : Nat} {ρ : Type} (expf : ℚ → ℚ) (idx : Fin k → Fin n)
    (attr : Fin k → ρ) {obj : Objective ρ} (he : obj.Exact) {labels : Labels k} {a : Fin k}
    {r : Int} {st st' : Strat n q} {rng rng' : Rng} {b : Bool} (hst : st.isMaxp = false)
    (h0 : st.objVal = obj.call labels attr)
    (h : st.call expf idx attr obj a r labels rng = .ok (b, st', rng')) :
    st'.isMaxp = false ∧
    st'.objVal = obj.call (if b then moved labels a r else labels) attr := by
  have htr : st.Tracks (fun l => obj.call l attr) 0 labels := by
    cases st with
    | azp v => exact h0
    | sa => exact h0
    | maxp => cases hst
  have hd : ∃ d, obj.update a r labels attr = some d := by
    cases hu : obj.update a r labels attr with
    | some d => exact ⟨d, rfl⟩
    | none =>
      cases st with
      | azp v => unfold Strat.call at h; rw [hu] at h; cases h
      | sa => unfold Strat.call at h; rw [hu] at h; cases h
      | maxp => cases hst
  obtain ⟨d, hd⟩ := hd
  obtain ⟨h1, h2⟩ := (Strat.call_post expf idx attr he 0 hd st rng htr).ok h
  dsimp only at h1 h2
  rw [hst] at h2
  refine ⟨h2, ?_⟩
  rw [Strat.tracks_objVal h1, h2]
  simp

/-- C27: at the end of a component, `objective_val` is the objective of the labels returned (default
and simulated-annealing strategy). -/
theorem c27_component {n q : Nat} {ρ : Type} (expf : ℚ → ℚ) {obj : Objective ρ}
    (he : obj.Exact) (ht : obj.Total) (idx : List (Fin n)) (hk : idx ≠ []) {adj : Adj idx.length}
    (hs : Symmetric adj) (init : Labels idx.length) (hc : AllContiguous adj init)
    (attr : Fin idx.length → ρ) (fuel : Nat) (st : Strat n q) (hst : st.isMaxp = false) (rng : Rng)
    {out : Labels idx.length} {st' : Strat n q} {rng' : Rng}
    (h : azpComp expf obj fuel idx adj init attr st rng = .ok (out, st', rng')) :
    st'.objVal = obj.call out attr := by
  have hok := Strat.stratOk (q := q) expf (fun i => idx.get i) attr he ht adj
    (obj.call init attr) st.isMaxp
  have := azpComponent_post hs (T := True) (fun L st a r rng h1 h2 h3 =>
    (hok L st a r rng h1 h2 h3).mono id False.elim fun _ h => h) fuel init
    (List.length_pos_iff.2 hk) hc (st.start (obj.call init attr))
    ⟨Strat.tracks_start (fun l => obj.call l attr) init st, Strat.isMaxp_start _ _⟩
    (fun L => 0) (fun h => absurd trivial h) rng
  have := (this.ok h).1
  dsimp only at this
  rw [Strat.tracks_objVal this.1, this.2, hst]
  simp

/-- For a Max-p decorator `objective_val` is *not* kept up to date: it stays at its initial value.
Here the objective drops from 4 to 2. -/
theorem c27_not_for_decorator :
    (match azpFit .rowMajor (fun _ => 0) (pairwise manhattan) 20 path4 (ramp 4) 2
        (some ![0, 1, 1, 1]) (Strat.maxp (fun _ _ => 1) (fun _ : Fin 1 => 1) 0 (.azp 0))
        fun _ => 0 with
      | .ok (L, st, _) => (arrayList L, st.objVal, (pairwise manhattan).call L (ramp 4))
      | _ => ([], 0, 0)) = ([0, 0, 1, 1], 4, 2) := by decide +kernel

end Region.Props
