import Verif.Lemmas.OneWay
import Verif.Props.AzpOpt
import Verif.Props.AzpSa
import Verif.Props.MaxPHeu
import Verif.Props.PRegionsExact
/-
Property theorem C125: contiguity matrices that are not symmetric.
-/
namespace Region.Props

open Region Spec Relation

/-! ### C125 -/

/-- C125 (part): whatever the matrix and the strategy, the labelling returned by `fit` has the requested
number of regions and the labels of the start, every label stays on its island, areas labelled -1 keep
that label and no other area gets it.  Missing: the regions need not be contiguous if the matrix is not
symmetric, see `c125_breaks`. -/
theorem c125_fit_partial {σ ρ : Type} {n : Nat} (o : MstOrder) (adj : Adj n) (attr : Fin n → ρ)
    (ops : (idx : List (Fin n)) → (Fin idx.length → ρ) → StratOps σ idx.length)
    (start : (idx : List (Fin n)) → Labels idx.length → (Fin idx.length → ρ) → σ → σ)
    (fuel : Nat) (p : Int) (initial : Option (Labels n)) (st : σ) (rng : Rng)
    {out : Labels n × σ × Rng}
    (h : fitAny o adj attr ops start fuel p initial st rng = .ok out) :
    ∃ lab, StartsFrom adj p initial lab ∧ (numRegions out.1 : Int) = p ∧
      (∀ x, (∃ i, out.1 i = x) ↔ ∃ i, lab i = x) ∧
      (∀ v, ∃ u, SameIsland adj u v ∧ lab u = out.1 v) ∧ (∀ v, out.1 v = -1 ↔ lab v = -1) ∧
      ∀ u v, out.1 u = out.1 v → out.1 u ≠ -1 → SameIsland adj u v := by
  have := fitWith_post (σ := σ) o (adj := adj) (attr := attr)
    (comp := fun idx a init at' st rng =>
      azpComponent (ops idx at') a fuel init (start idx init at' st) rng)
    (S := fun _ => True)
    (Q := fun idx init out => ∀ x, (∃ i, out i = x) ↔ ∃ i, init i = x) (R := True) (T := True) p
    initial (fun h => absurd trivial h) (by
      intro lab hlab c hc st rng _
      have he : (fun i => compArray adj lab c ((shown (compArray adj lab c)).get i)) =
          fun i => lab ((shown (compArray adj lab c)).get i) := by
        funext i
        have hi := mem_shown.1 (List.get_mem (shown (compArray adj lab c)) i)
        have := (compArray_ne.1 hi).1
        change (if compLabels adj ((shown (compArray adj lab c)).get i) = c then _ else _) = _
        rw [if_pos this]
      rw [he]
      generalize shown (compArray adj lab c) = idx
      by_cases hk : 0 < idx.length
      · have hok : LooseOk (ops idx fun i => attr (idx.get i)) (fun _ _ => True) True True := by
          intro labels st a r rng _ _
          generalize (ops idx fun i => attr (idx.get i)).call st a r labels rng = x
          cases x <;> trivial
        apply (azpComponent_loose hok fuel _ hk _ trivial
          (fun _ => 0) (fun h => absurd trivial h) rng).mono id id
        rintro q ⟨_, h2⟩
        exact ⟨looseReach_image h2, trivial⟩
      · have : idx = [] := by simpa using hk
        subst this
        exact trivial) st trivial rng
  obtain ⟨_, lab, hlab, hf⟩ := this.ok h
  obtain ⟨h1, h2⟩ := fit_result hf
  obtain ⟨g1, g2, g3, g4⟩ := fitLoose_of_image hlab.1 h1 h2
  refine ⟨lab, hlab, ?_, g1, g2, g3, fun u v huv hu => g4 u v huv fun h => hu ((g3 u).2 h)⟩
  rw [← hlab.2.1]
  unfold numRegions
  congr 2
  ext x
  simpa using g1 x

/-- C125 (part): with the default strategy and the pairwise objective the total over the map does not get
worse, whatever the matrix.  Missing: as above. -/
theorem c125_value_partial {n q : Nat} {ρ : Type} (o : MstOrder) (expf : ℚ → ℚ)
    {metric : ρ → ρ → ℚ} (hm : ∀ x y, metric x y = metric y x) (h0 : ∀ x, metric x x = 0)
    (adj : Adj n) (attr : Fin n → ρ) (p : Int) (init : Labels n) (fuel : Nat)
    (v : ℚ) (rng : Rng) {labels : Labels n} {st' : Strat n q} {rng' : Rng}
    (h : azpFit o expf (pairwise metric) fuel adj attr p (some init) (.azp v) rng =
      .ok (labels, st', rng')) :
    (pairwise metric).call labels attr ≤ (pairwise metric).call init attr := by
  have he : (pairwise metric).Exact := pairwise_exact hm h0
  have ht : (pairwise metric).Total := pairwise_total metric
  have := fitWith_post (σ := Strat n q) o (adj := adj) (attr := attr)
    (comp := azpComp expf (pairwise metric) fuel) (S := fun st => ∃ v, st = .azp v)
    (Q := fun idx init out => (∀ x, (∃ i, out i = x) ↔ ∃ i, init i = x) ∧
      (pairwise metric).call out (fun i => attr (idx.get i)) ≤
        (pairwise metric).call init (fun i => attr (idx.get i))) (R := True) (T := True) p
    (some init) (fun h => absurd trivial h) (by
      rintro lab hlab c hc _ rng ⟨v, rfl⟩
      have he' : (fun i => compArray adj lab c ((shown (compArray adj lab c)).get i)) =
          fun i => lab ((shown (compArray adj lab c)).get i) := by
        funext i
        have hi := mem_shown.1 (List.get_mem (shown (compArray adj lab c)) i)
        have := (compArray_ne.1 hi).1
        change (if compLabels adj ((shown (compArray adj lab c)).get i) = c then _ else _) = _
        rw [if_pos this]
      rw [he']
      generalize shown (compArray adj lab c) = idx
      by_cases hk : 0 < idx.length
      · have hok : LooseOk (Strat.ops (q := q) expf (fun i => idx.get i) (fun i => attr (idx.get i))
            (pairwise metric)) (AzpTracks n q (pairwise metric) fun i => attr (idx.get i)) True True := by
          intro L st a r rng hl hP
          obtain ⟨d, hd⟩ := ht a r L (fun i => attr (idx.get i)) hl.2.1 hl.2.2
          unfold AzpTracks at hP
          subst hP
          change (Strat.call expf _ _ _ _ a r L rng).Post _ _ _
          unfold Strat.call
          rw [hd]
          dsimp only
          split_ifs
          · change Strat.azp _ = Strat.azp ((pairwise metric).call (moved L a r) _)
            rw [he a r L _ d hd]
          · rfl
        unfold azpComp
        apply (azpComponent_loose hok fuel _ hk _ (rfl : AzpTracks n q _ _ _ _)
          (fun _ => 0) (fun h => absurd trivial h) rng).mono id id
        rintro ⟨out, st, rng⟩ ⟨h1, h2⟩
        refine ⟨⟨looseReach_image h2, ?_⟩, _, h1⟩
        dsimp only at h2 ⊢
        clear h1
        induction h2 with
        | refl => exact le_rfl
        | tail _ h3 ih =>
          obtain ⟨a, r, _, ⟨st, rng, st', rng', hst, hcall⟩, rfl⟩ := h3
          unfold AzpTracks at hst
          subst hst
          exact ((azp_answer (expf := expf) (idx := fun i => idx.get i) he hcall).1.1 rfl).trans ih
      · unfold azpComp
        rw [azpComponent_empty _ _ hk]
        exact trivial) (.azp v) ⟨v, rfl⟩ rng
  obtain ⟨_, lab, ⟨hc1, _, rfl⟩, hf⟩ := this.ok h
  obtain ⟨h1, h2⟩ := fit_result hf
  obtain ⟨_, _, g3, g4⟩ := fitLoose_of_image hc1 h1 fun c hc => (h2 c hc).1
  have hneg : ∀ u v, lab u = -1 → lab v = -1 → SameIsland adj u v := fun u v hu hv =>
    pathIn_sameIsland ((hc1 u).2 u rfl v (hv.trans hu.symm))
  rw [c18_pairwise, c18_pairwise,
    withinPairs_split adj lab labels _ g3 fun u v huv => by
      by_cases hu : lab u = -1
      · exact hneg u v hu ((g3 v).1 (huv.symm.trans ((g3 u).2 hu)))
      · exact g4 u v huv hu,
    withinPairs_split adj lab lab _ (fun _ => Iff.rfl) fun u v huv => pathIn_sameIsland
      ((hc1 u).2 u rfl v huv.symm)]
  have : ∀ c ∈ Finset.range (nComponents adj),
      withinPairs (fun i => labels ((shown (compArray adj lab c)).get i))
        (fun i j => metric (attr ((shown (compArray adj lab c)).get i))
          (attr ((shown (compArray adj lab c)).get j))) ≤
      withinPairs (fun i => lab ((shown (compArray adj lab c)).get i))
        (fun i j => metric (attr ((shown (compArray adj lab c)).get i))
          (attr ((shown (compArray adj lab c)).get j))) := by
    intro c hc
    have := (h2 c (by simpa using hc)).2
    rw [c18_pairwise, c18_pairwise] at this
    exact this
  have := Finset.sum_le_sum this
  linarith

/-- Four areas; area 1 lists area 2 as a neighbour but not the other way round. -/
def oneWay4 : Adj 4 := fun i j =>
  (if i = 0 then [1, 2] else if i = 1 then [0, 2] else if i = 2 then [0, 3] else [2]).contains j

example : ¬ Spec.Symmetric oneWay4 := by unfold Spec.Symmetric; decide +kernel

/-- C125, what is missing: from a contiguous start, AZP returns regions that are not contiguous.  Area 1
joins the region of area 0, then area 2 does, and area 1 leaves again through the one-way border. -/
theorem c125_breaks :
    assertFeasible ![0, 1, 1, 1] oneWay4 (some 2) = .ok () ∧
    (match azpFit (q := 0) .rowMajor (fun _ => 0) (pairwise manhattan) 20 oneWay4
        (column ![1, 0, 1, 0]) 2 (some ![0, 1, 1, 1]) (.azp 0) fun _ => 0 with
      | .ok (L, _, _) => arrayList L
      | _ => []) = [0, 1, 0, 1] ∧
    ¬ AllContiguous oneWay4 (![0, 1, 0, 1] : Labels 4) := by
  refine ⟨by decide +kernel, by decide +kernel, fun h => ?_⟩
  have h1 := (c04_assert_feasible_ok ![0, 1, 0, 1] oneWay4 none).2
    ⟨h, by simp⟩
  revert h1
  decide +kernel

example : GoodStart oneWay4 2 (some ![0, 1, 1, 1]) := by
  refine ⟨((c04_assert_feasible_ok ![0, 1, 1, 1] oneWay4 none).1 (by decide +kernel)).1,
    by decide +kernel, ?_⟩
  intro v
  exact ⟨v, .refl, by revert v; decide⟩

/-- C125, simulated annealing: it passes such labels on to the next run of AZP, which rejects them. -/
theorem c125_annealing_raises :
    (match saFit .rowMajor (fun _ => 0) (pairwise manhattan) 20 5 30 saDemo .fresh oneWay4
        (column ![1, 0, 1, 0]) 2 (some ![0, 1, 1, 1]) (1/2) fun _ => 0 with
      | .raise e => some e
      | _ => none) = some (.valueError "Region 1 is not spatially contiguous.") := by decide +kernel

/-- C125, max-p: an enclave without neighbours of its own is taken a second time by a region that lists it
and `grow_regions` raises. -/
theorem c125_grow_raises :
    (match growRegions manhattan arrow2 (column ![0, 5]) (fun _ (_ : Fin 1) => 1) (fun _ => 2)
        (fun i => if i = 0 then 1 else 0) with
      | .raise e => some e
      | _ => none) = some (.valueError "list.remove(x): x not in list") := by decide +kernel

/-- Three areas; only area 0 lists its neighbours. -/
def fan3 : Adj 3 := fun i j => decide (i = 0) && decide (j ≠ 0)

/-- C125, the order model: it can have no solution although there is a clustering into `n_regions`
contiguous regions (compare `c51_order_representable_partial`). -/
theorem c125_order_incomplete (d : Fin 3 → Fin 3 → ℚ) :
    Feasible fan3 (fun _ => (0 : Int)) 1 ∧
    ∃ P, orderLp fan3 d 1 = .ok P ∧ ∀ a, ¬ P.Feasible a := by
  refine ⟨⟨((c04_assert_feasible_ok (fun _ => 0) fan3 none).1 (by decide +kernel)).1,
    by decide +kernel⟩, ?_⟩
  obtain ⟨P, hP⟩ := (orderLp_ok_iff (adj := fan3) (d := d) (p := 1) (by decide) (by decide)).2
    (by decide)
  refine ⟨P, hP, fun a ha => ?_⟩
  have h := (order_feasible_iff hP).1 ha
  have e1 := h.c15 1
  have e2 := h.c15 2
  have e3 := h.c14 0 (by decide)
  have f1 := h.c16 1 0 0 (by decide) (by decide)
  have f2 := h.c16 2 0 0 (by decide) (by decide)
  have g := (h.x01 0 0 0 (by decide) (by decide)).1
  simp [Finset.sum_range_succ, Fin.sum_univ_three, fan3] at e1 e2 e3 f1 f2
  omega

end Region.Props
