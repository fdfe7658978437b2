import Verif.Lemmas.OneWay
import Verif.Lemmas.AzpUtil
import Verif.Props.Util
import Verif.Props.Objective
/-
Property theorems C08, C21-C28: the AZP heuristic.
-/
namespace Region.Props

open Region Spec Relation

/-! ### C08 -/

/-- C08 is false: without initial labels and with `n_regions = 1`, `fit` raises `TypeError` on every
non-empty graph, for every strategy, objective and random stream. -/
theorem c08_single_region_raises {n q : Nat} {ρ : Type} (o : MstOrder) (expf : ℚ → ℚ)
    (obj : Objective ρ) (fuel : Nat) (adj : Adj n) (attr : Fin n → ρ) (hn : 0 < n)
    (st : Strat n q) (rng : Rng) :
    azpFit o expf obj fuel adj attr 1 none st rng = .raise .typeError := by
  unfold azpFit fitWith generateInitialSol
  dsimp only
  rw [if_neg (by omega), if_neg (by omega), if_pos rfl]
  rfl

/-- C08 (part): with `initial_labels` given (all areas of a connected map in one region), `fit`
returns them.  What is missing: `initial_labels = None`, see `c08_single_region_raises`. -/
theorem c08_single_region_partial {n q : Nat} {ρ : Type} (o : MstOrder) (expf : ℚ → ℚ)
    (obj : Objective ρ) (fuel : Nat) (adj : Adj n) (attr : Fin n → ρ) (hc : Connected adj)
    (x : Int) (hx : x ≠ -1) (st : Strat n q) (rng : Rng) :
    ∃ st' rng', azpFit o expf obj fuel adj attr 1 (some fun _ => x) st rng =
      .ok ((fun _ => x), st', rng') := by
  obtain ⟨⟨v0⟩, hconn⟩ := hc
  have h1 : AllContiguous adj (fun _ : Fin n => x) := by
    intro v
    refine ⟨⟨v, rfl⟩, fun a _ b _ => ?_⟩
    exact rtg_mono (fun _ _ h => ⟨rfl, rfl, h⟩) (hconn a b)
  have h2 : numRegions (fun _ : Fin n => x) = 1 := by
    unfold numRegions
    rw [Finset.image_const ⟨v0, Finset.mem_univ _⟩]; simp
  have := fitWith_post (σ := Strat n q) o (adj := adj) (attr := attr)
    (comp := azpComp expf obj fuel) (S := fun _ => True)
    (Q := fun idx init out => out = init) (R := False) (T := False) 1 (some fun _ => x)
    (fun _ => ⟨h1, by rw [h2]; rfl⟩) (by
      rintro lab ⟨_, _, rfl⟩ c hcc st rng _
      obtain ⟨w, hw⟩ := compLabels_surj adj hcc
      have hmem : w ∈ shown (compArray adj (fun _ => x) c) := by
        rw [mem_shown, compArray_ne]; exact ⟨hw, hx⟩
      have hone : numRegions (fun i => compArray adj (fun _ => x) c
          ((shown (compArray adj (fun _ => x) c)).get i)) = 1 := by
        have hcst : (fun i => compArray adj (fun _ => x) c
            ((shown (compArray adj (fun _ => x) c)).get i)) = fun _ => x := by
          funext i
          have hi := mem_shown.1 (List.get_mem (shown (compArray adj (fun _ => x) c)) i)
          have := (compArray_ne.1 hi).1
          change (if compLabels adj ((shown (compArray adj (fun _ => x) c)).get i) = c
            then _ else _) = _
          rw [if_pos this]
        rw [hcst]
        unfold numRegions
        obtain ⟨i, _⟩ := List.get_of_mem hmem
        rw [Finset.image_const ⟨i, Finset.mem_univ _⟩]; simp
      unfold azpComp azpComponent
      dsimp only
      rw [length_unique_labels, if_pos hone]
      exact ⟨rfl, trivial⟩) st trivial rng
  obtain ⟨⟨L, st', rng'⟩, h3, _, lab, ⟨_, _, rfl⟩, hf⟩ := this.total
  refine ⟨st', rng', ?_⟩
  unfold azpFit
  rw [h3]
  congr 2
  funext v
  have := (fit_result hf).2 _ (compLabels_lt adj v)
  obtain ⟨i, hi⟩ := List.get_of_mem (show v ∈ shown (compArray adj (fun _ => x)
    (compLabels adj v)) by rw [mem_shown, compArray_ne]; exact ⟨rfl, hx⟩)
  have := congrFun this i
  dsimp only at this
  rwa [hi] at this

example : Connected path4 ∧ (0 : Int) ≠ -1 := ⟨(c01_is_connected _).1 (by decide +kernel), by decide⟩

/-! ### C21, C28 -/

/-- `fit` with an arbitrary strategy object: any type of states, any function deciding about moves
(it may raise), any `start_new_component`. -/
def fitAny {σ ρ : Type} {n : Nat} (o : MstOrder) (adj : Adj n) (attr : Fin n → ρ)
    (ops : (idx : List (Fin n)) → (Fin idx.length → ρ) → StratOps σ idx.length)
    (start : (idx : List (Fin n)) → Labels idx.length → (Fin idx.length → ρ) → σ → σ)
    (fuel : Nat) (nRegions : Int) (initial : Option (Labels n)) (st : σ) (rng : Rng) :
    Res (Labels n × σ × Rng) :=
  fitWith o adj attr (fun idx a init at' st rng =>
    azpComponent (ops idx at') a fuel init (start idx init at' st) rng) nRegions initial st rng

/-- `AZP.fit` with the library's strategies is an instance. -/
theorem azpFit_eq_fitAny {n q : Nat} {ρ : Type} (o : MstOrder) (expf : ℚ → ℚ) (obj : Objective ρ)
    (fuel : Nat) (adj : Adj n) (attr : Fin n → ρ) (p : Int) (initial : Option (Labels n))
    (st : Strat n q) (rng : Rng) :
    azpFit o expf obj fuel adj attr p initial st rng =
      fitAny o adj attr (fun idx at' => Strat.ops expf (fun i => idx.get i) at' obj)
        (fun _ init at' st => st.start (obj.call init at')) fuel p initial st rng := rfl

theorem subAdj_symm {n : Nat} {adj : Adj n} (hs : Symmetric adj) (idx : List (Fin n)) :
    Symmetric (subAdj adj idx) := fun _ _ => hs _ _

/-- Whatever the strategy, `fit` returns a labelling that is `FitOk`. -/
theorem fitAny_ok {σ ρ : Type} {n : Nat} (o : MstOrder) {adj : Adj n} (hs : Symmetric adj)
    (attr : Fin n → ρ)
    (ops : (idx : List (Fin n)) → (Fin idx.length → ρ) → StratOps σ idx.length)
    (start : (idx : List (Fin n)) → Labels idx.length → (Fin idx.length → ρ) → σ → σ)
    (fuel : Nat) (p : Int) (initial : Option (Labels n)) (st : σ) (rng : Rng)
    {out : Labels n × σ × Rng}
    (h : fitAny o adj attr ops start fuel p initial st rng = .ok out) :
    ∃ lab, StartsFrom adj p initial lab ∧ FitOk adj lab out.1 := by
  have := fitWith_post (σ := σ) o (adj := adj) (attr := attr)
    (comp := fun idx a init at' st rng =>
      azpComponent (ops idx at') a fuel init (start idx init at' st) rng)
    (S := fun _ => True)
    (Q := fun idx init out => KeepsRegions (subAdj adj idx) init out) (R := True) (T := True) p
    initial (fun h => absurd trivial h) (by
      intro lab hlab c hc st rng _
      have hcont := comp_contiguous hlab.1 c
      have he : (fun i => compArray adj lab c ((shown (compArray adj lab c)).get i)) =
          fun i => lab ((shown (compArray adj lab c)).get i) := by
        funext i
        have hi := mem_shown.1 (List.get_mem (shown (compArray adj lab c)) i)
        have := (compArray_ne.1 hi).1
        change (if compLabels adj ((shown (compArray adj lab c)).get i) = c then _ else _) = _
        rw [if_pos this]
      rw [he]
      generalize shown (compArray adj lab c) = idx at hcont ⊢
      by_cases hk : 0 < idx.length
      · have hok : StratOk (ops idx fun i => attr (idx.get i)) (subAdj adj idx)
            (fun _ _ => True) True True := by
          intro labels st a r rng _ _ _
          generalize (ops idx fun i => attr (idx.get i)).call st a r labels rng = x
          cases x <;> trivial
        apply (azpComponent_post (subAdj_symm hs idx) hok fuel _ hk hcont _ trivial
          (fun _ => 0) (fun h => absurd trivial h) rng).mono id id
        rintro q ⟨_, h2, h3, _⟩
        exact ⟨⟨h2, reach_image h3⟩, trivial⟩
      · have : idx = [] := by simpa using hk
        subst this
        exact trivial) st trivial rng
  obtain ⟨_, lab, hlab, hf⟩ := this.ok h
  obtain ⟨h1, h2⟩ := fit_result hf
  exact ⟨lab, hlab, fitOk_of_keeps hlab.1 h1 h2⟩

theorem FitOk.numRegions_eq {n : Nat} {adj : Adj n} {lab L : Labels n} (h : FitOk adj lab L) :
    numRegions L = numRegions lab := by
  unfold numRegions
  congr 1
  ext x
  simpa using h.image x

/-- C21: if `fit` returns, the initial labelling was feasible and the result has the same region
labels, the requested number of regions, and all its regions are contiguous: for every undirected
graph, every strategy (even one that raises or behaves erratically) and all random draws. -/
theorem c21_fit_keeps_feasible {σ ρ : Type} {n : Nat} (o : MstOrder) {adj : Adj n}
    (hs : Symmetric adj) (attr : Fin n → ρ)
    (ops : (idx : List (Fin n)) → (Fin idx.length → ρ) → StratOps σ idx.length)
    (start : (idx : List (Fin n)) → Labels idx.length → (Fin idx.length → ρ) → σ → σ)
    (fuel : Nat) (p : Nat) (init : Labels n) (st : σ) (rng : Rng) {labels : Labels n} {st' : σ}
    {rng' : Rng}
    (h : fitAny o adj attr ops start fuel p (some init) st rng = .ok (labels, st', rng')) :
    Feasible adj init p ∧ Feasible adj labels p ∧
      ∀ x, (∃ v, labels v = x) ↔ ∃ v, init v = x := by
  obtain ⟨lab, ⟨h1, h2, rfl⟩, hf⟩ := fitAny_ok o hs attr ops start fuel p (some init) st rng h
  have h2' : numRegions lab = p := by exact_mod_cast h2
  exact ⟨⟨h1, h2'⟩, ⟨hf.contiguous, by rw [FitOk.numRegions_eq hf, h2']⟩, hf.image⟩

/-- C28: every label of the result is used, in the initial labelling, on the same island: no area
moves to a region of another island. -/
theorem c28_islands_independent {σ ρ : Type} {n : Nat} (o : MstOrder) {adj : Adj n}
    (hs : Symmetric adj) (attr : Fin n → ρ)
    (ops : (idx : List (Fin n)) → (Fin idx.length → ρ) → StratOps σ idx.length)
    (start : (idx : List (Fin n)) → Labels idx.length → (Fin idx.length → ρ) → σ → σ)
    (fuel : Nat) (p : Int) (init : Labels n) (st : σ) (rng : Rng) {labels : Labels n} {st' : σ}
    {rng' : Rng}
    (h : fitAny o adj attr ops start fuel p (some init) st rng = .ok (labels, st', rng')) :
    (∀ v, ∃ u, SameIsland adj u v ∧ init u = labels v) ∧
    (∀ u v, labels u = init v → SameIsland adj u v) := by
  obtain ⟨lab, ⟨h1, h2, rfl⟩, hf⟩ := fitAny_ok o hs attr ops start fuel p (some init) st rng h
  refine ⟨hf.island, ?_⟩
  intro u v huv
  obtain ⟨w, hw1, hw2⟩ := hf.island u
  have := pathIn_sameIsland ((h1 w).2 w rfl v (by change lab v = lab w; rw [← huv, hw2]))
  exact (sameIsland_symm hw1).trans this

/-- Areas labelled -1 by the user (a legal label for `assert_feasible`) are never moved, because -1 is
also the marker for "not in this component". -/
theorem c21_minus_one_frozen {σ ρ : Type} {n : Nat} (o : MstOrder) {adj : Adj n}
    (hs : Symmetric adj) (attr : Fin n → ρ)
    (ops : (idx : List (Fin n)) → (Fin idx.length → ρ) → StratOps σ idx.length)
    (start : (idx : List (Fin n)) → Labels idx.length → (Fin idx.length → ρ) → σ → σ)
    (fuel : Nat) (p : Int) (init : Labels n) (st : σ) (rng : Rng) {labels : Labels n} {st' : σ}
    {rng' : Rng}
    (h : fitAny o adj attr ops start fuel p (some init) st rng = .ok (labels, st', rng')) :
    ∀ v, labels v = -1 ↔ init v = -1 := by
  obtain ⟨lab, ⟨h1, h2, rfl⟩, hf⟩ := fitAny_ok o hs attr ops start fuel p (some init) st rng h
  exact hf.frozen

/-! ### C24 -/

/-- C24: on one component, with the library's strategies (default, simulated annealing, Max-p
decorators of these) and an objective with exact updates, the routine returns, for every matrix (symmetric
or not) and every initial labelling: it never raises, and from some number of observed iterations on it is never still running, whatever the random draws. -/
theorem c24_component_terminates {n q : Nat} {ρ : Type} (expf : ℚ → ℚ) {obj : Objective ρ}
    (he : obj.Exact) (ht : obj.Total) (idx : List (Fin n)) (hk : idx ≠ []) (adj : Adj idx.length)
    (init : Labels idx.length) (attr : Fin idx.length → ρ) (fuel : Nat)
    (hf : idx.length + numRegions init ^ idx.length < fuel) (st : Strat n q) (rng : Rng) :
    ∃ out, azpComp expf obj fuel idx adj init attr st rng = .ok out := by
  have hk' : 0 < idx.length := List.length_pos_iff.2 hk
  have := azpComponent_loose (adj := adj) (Strat.looseOk (q := q) expf (fun i => idx.get i) attr he ht
    (obj.call init attr) st.isMaxp) fuel init hk' (st.start (obj.call init attr))
    ⟨Strat.tracks_start (fun l => obj.call l attr) init st, Strat.isMaxp_start _ _⟩
    (fun L => if st.isMaxp then obj.call init attr else obj.call L attr)
    (fun _ => ⟨hf, fun L st' h => by rw [← h.2]; exact Strat.tracks_objVal h.1⟩) rng
  obtain ⟨a, h, _⟩ := this.total
  exact ⟨a, h⟩

/-- The objectives of the library meet the hypotheses of C24. -/
theorem c24_pairwise {ρ : Type} {metric : ρ → ρ → ℚ} (hs : ∀ x y, metric x y = metric y x)
    (h0 : ∀ x, metric x x = 0) : (pairwise metric).Exact ∧ (pairwise metric).Total :=
  ⟨pairwise_exact hs h0, pairwise_total metric⟩

theorem c24_center {ρ : Type} (metric : ρ → ρ → ℚ) (center : List ρ → ρ) :
    (centered metric center List.sum).Exact ∧ (centered metric center List.sum).Total :=
  ⟨centered_sum_exact metric center, centered_total metric center _⟩

/-- The hypotheses on a start clustering under which `fit` is guaranteed to return. -/
def GoodStart {n : Nat} (adj : Adj n) (p : Int) (initial : Option (Labels n)) : Prop :=
  match initial with
  | some init => AllContiguous adj init ∧ (numRegions init : Int) = p ∧
      ∀ v, ∃ u, SameIsland adj u v ∧ init u ≠ -1
  | none => 0 < n ∧ p ≤ n ∧ p ≠ 1 ∧ (nComponents adj : Int) ≤ p

/-- `fit` returns if the routine for one component returns from every contiguous start. -/
theorem fitWith_total {σ ρ : Type} {n : Nat} (o : MstOrder) {adj : Adj n} (attr : Fin n → ρ)
    {comp : (idx : List (Fin n)) → Adj idx.length → Labels idx.length → (Fin idx.length → ρ) →
      σ → Rng → Res (Labels idx.length × σ × Rng)}
    (p : Int) (initial : Option (Labels n)) (hstart : GoodStart adj p initial)
    (hcomp : ∀ (idx : List (Fin n)) (init : Labels idx.length) (st : σ) (rng : Rng), idx ≠ [] →
      idx.length ≤ n → AllContiguous (subAdj adj idx) init → ∃ out,
        comp idx (subAdj adj idx) init (fun i => attr (idx.get i)) st rng = .ok out)
    (st : σ) (rng : Rng) :
    ∃ out, fitWith o adj attr comp p initial st rng = .ok out := by
  have := fitWith_post (σ := σ) o (adj := adj) (attr := attr)
    (comp := comp) (S := fun _ => True)
    (Q := fun _ _ _ => True) (R := False) (T := False) p
    initial (by
      intro _
      cases initial with
      | some init => exact ⟨hstart.1, hstart.2.1⟩
      | none => exact hstart) (by
      intro lab hlab c hc st rng _
      have hcont := comp_contiguous hlab.1 c
      have he' : (fun i => compArray adj lab c ((shown (compArray adj lab c)).get i)) =
          fun i => lab ((shown (compArray adj lab c)).get i) := by
        funext i
        have hi := mem_shown.1 (List.get_mem (shown (compArray adj lab c)) i)
        have := (compArray_ne.1 hi).1
        change (if compLabels adj ((shown (compArray adj lab c)).get i) = c then _ else _) = _
        rw [if_pos this]
      rw [he']
      have hne : shown (compArray adj lab c) ≠ [] := by
        obtain ⟨w, hw⟩ := compLabels_surj adj hc
        have : ∃ u, SameIsland adj u w ∧ lab u ≠ -1 := by
          cases initial with
          | some init =>
            obtain ⟨_, _, rfl⟩ := hlab
            exact hstart.2.2 w
          | none => exact ⟨w, .refl, by have := (hlab.2.2 w).1; omega⟩
        obtain ⟨u, hu1, hu2⟩ := this
        intro h
        have : u ∈ shown (compArray adj lab c) := by
          rw [mem_shown, compArray_ne]
          exact ⟨by rw [← hw]; exact (compLabels_eq_iff adj _ _).2 hu1, hu2⟩
        rw [h] at this; cases this
      have hnd := shown_nodup (compArray adj lab c)
      generalize shown (compArray adj lab c) = idx at hcont hne hnd ⊢
      have hlen : idx.length ≤ n := by
        have := hnd.length_le_card
        simpa using this
      obtain ⟨out, ho⟩ := hcomp idx _ st rng hne hlen hcont
      rw [ho]
      exact ⟨trivial, trivial⟩) st trivial rng
  obtain ⟨a, h, _⟩ := this.total
  exact ⟨a, h⟩

/-- `fit` returns for the strategies of the library. -/
theorem azpFit_total {n q : Nat} {ρ : Type} (o : MstOrder) (expf : ℚ → ℚ) {obj : Objective ρ}
    (he : obj.Exact) (ht : obj.Total) {adj : Adj n} (attr : Fin n → ρ)
    (p : Int) (initial : Option (Labels n)) (hstart : GoodStart adj p initial) (fuel : Nat)
    (hf : n + n ^ n < fuel) (st : Strat n q) (rng : Rng) :
    ∃ out, azpFit o expf obj fuel adj attr p initial st rng = .ok out := by
  refine fitWith_total o attr p initial hstart (fun idx init st rng hne hlen hcont => ?_) st rng
  have hnum : numRegions init ≤ idx.length := by
    unfold numRegions
    exact Finset.card_image_le.trans (by simp)
  have hpow : numRegions init ^ idx.length ≤ n ^ n := by
    have h1 : 0 < n := lt_of_lt_of_le (List.length_pos_iff.2 hne) hlen
    exact (Nat.pow_le_pow_left (hnum.trans hlen) _).trans (Nat.pow_le_pow_right h1 hlen)
  exact c24_component_terminates (q := q) expf he ht idx hne
    (subAdj adj idx) init (fun i => attr (idx.get i)) fuel (by omega) st rng

/-- C24 for `fit`: from a feasible start (in which no island is labelled -1 throughout) or from an
admissible number of regions, `fit` returns whatever the random draws. -/
theorem c24_fit_terminates {n q : Nat} {ρ : Type} (o : MstOrder) (expf : ℚ → ℚ) {obj : Objective ρ}
    (he : obj.Exact) (ht : obj.Total) {adj : Adj n} (attr : Fin n → ρ)
    (p : Int) (initial : Option (Labels n)) (hstart : GoodStart adj p initial) (fuel : Nat)
    (hf : n + n ^ n < fuel) (st : Strat n q) (rng : Rng) :
    ∃ out, azpFit o expf obj fuel adj attr p initial st rng = .ok out :=
  azpFit_total o expf he ht attr p initial hstart fuel hf st rng

/-- An island whose areas are all labelled -1 makes `fit` raise `UnboundLocalError` although
`assert_feasible` accepts the labelling. -/
theorem c24_all_minus_one_raises :
    assertFeasible ![-1, -1, 0, 0] islands4 (some 2) = .ok () ∧
    (azpFit (q := 0) .rowMajor (fun _ => 0) (pairwise manhattan) 10 islands4 (ramp 4) 2
      (some ![-1, -1, 0, 0]) (.azp 0) fun _ => 0) = .raise .unboundLocalError := by
  refine ⟨by decide +kernel, ?_⟩
  have : (match azpFit (q := 0) .rowMajor (fun _ => 0) (pairwise manhattan) 10 islands4 (ramp 4) 2
      (some ![-1, -1, 0, 0]) (.azp 0) fun _ => 0 with
    | .raise e => decide (e = .unboundLocalError)
    | _ => false) = true := by decide +kernel
  split at this
  · rename_i e h; rw [h]; simpa using this
  · cases this

theorem path4_symm : Symmetric path4 := by unfold Spec.Symmetric; decide +kernel

theorem path4_start : GoodStart path4 2 (some ![0, 0, 1, 1]) := by
  refine ⟨((c04_assert_feasible_ok ![0, 0, 1, 1] path4 none).1 (by decide +kernel)).1,
    by decide +kernel, ?_⟩
  intro v
  exact ⟨v, .refl, by revert v; decide⟩

example : GoodStart islands4 3 none := by
  refine ⟨by decide, by decide, by decide, by decide +kernel⟩

/-- A run on the path with attributes 0, 1, 2, 3 starting from an unbalanced clustering. -/
example : (match azpFit (q := 0) .rowMajor (fun _ => 0) (pairwise manhattan) 20 path4 (ramp 4) 2
      (some ![0, 1, 1, 1]) (.azp 0) fun _ => 0 with
    | .ok (L, _, _) => arrayList L
    | _ => []) = [0, 0, 1, 1] := by decide +kernel

/-! ### C22 -/

/-- C22: without initial labels, for `n_regions ≥ 2` admissible, `fit` returns a clustering into exactly
`n_regions` contiguous regions labelled `0 … n_regions-1`. -/
theorem c22_fit_from_scratch {n q : Nat} {ρ : Type} (o : MstOrder) (expf : ℚ → ℚ)
    {obj : Objective ρ} (he : obj.Exact) (ht : obj.Total) {adj : Adj n} (hs : Symmetric adj)
    (attr : Fin n → ρ) (p : Nat) (h2 : 2 ≤ p) (hpn : p ≤ n) (hcomp : nComponents adj ≤ p)
    (fuel : Nat) (hf : n + n ^ n < fuel) (st : Strat n q) (rng : Rng) :
    ∃ labels st' rng', azpFit o expf obj fuel adj attr p none st rng = .ok (labels, st', rng') ∧
      Feasible adj labels p ∧ ∀ v, 0 ≤ labels v ∧ labels v < p := by
  obtain ⟨⟨labels, st', rng'⟩, h⟩ := azpFit_total o expf he ht attr p none
    ⟨by omega, by exact_mod_cast hpn, by omega, by exact_mod_cast hcomp⟩ fuel hf st rng
  refine ⟨labels, st', rng', h, ?_⟩
  rw [azpFit_eq_fitAny] at h
  obtain ⟨lab, ⟨h3, h4, h5⟩, hfit⟩ := fitAny_ok o hs attr _ _ fuel p none st rng h
  have h4' : numRegions lab = p := by exact_mod_cast h4
  refine ⟨⟨hfit.contiguous, by rw [FitOk.numRegions_eq hfit, h4']⟩, ?_⟩
  intro v
  obtain ⟨u, hu⟩ := (hfit.image (labels v)).1 ⟨v, rfl⟩
  rw [← hu]; exact h5 u

/-- C22, partial correctness for an arbitrary strategy. -/
theorem c22_any_strategy {σ ρ : Type} {n : Nat} (o : MstOrder) {adj : Adj n}
    (hs : Symmetric adj) (attr : Fin n → ρ)
    (ops : (idx : List (Fin n)) → (Fin idx.length → ρ) → StratOps σ idx.length)
    (start : (idx : List (Fin n)) → Labels idx.length → (Fin idx.length → ρ) → σ → σ)
    (fuel : Nat) (p : Nat) (st : σ) (rng : Rng) {labels : Labels n} {st' : σ} {rng' : Rng}
    (h : fitAny o adj attr ops start fuel p none st rng = .ok (labels, st', rng')) :
    Feasible adj labels p := by
  obtain ⟨lab, ⟨h3, h4, h5⟩, hfit⟩ := fitAny_ok o hs attr _ _ fuel p none st rng h
  have h4' : numRegions lab = p := by exact_mod_cast h4
  exact ⟨hfit.contiguous, by rw [FitOk.numRegions_eq hfit, h4']⟩

/-! ### C25 -/

/-- The states `_azp_connected_component` goes through: the initial one; any change of the strategy
object and of the random generator; the accepted move of a listed candidate. -/
inductive Visits {σ : Type} {k : Nat} (adj : Adj k) (init : Labels k) : AzpState σ k → Prop
  | start (st : σ) (rng : Rng) :
      Visits adj init ⟨init, initNbrs adj init (uniqueSorted (arrayList init)), st, rng⟩
  | ask (s : AzpState σ k) (st : σ) (rng : Rng) (h : Visits adj init s) :
      Visits adj init { s with strat := st, rng := rng }
  | move (s s' : AzpState σ k) (r : Int) (border : Fin k → Bool) (cand : Fin k)
      (h : Visits adj init s) (hr : r ∈ uniqueSorted (arrayList init))
      (hb : getNbrs s.nbrs r = .ok border) (hc : cand ∈ candidates adj s.labels border)
      (hm : applyMove adj r cand s = .ok s') : Visits adj init s'

theorem visits_inv {σ : Type} {k : Nat} {adj : Adj k} (hs : Symmetric adj) {init : Labels k}
    (hc : AllContiguous adj init) {s : AzpState σ k} (h : Visits adj init s) :
    NbrsOk adj s.labels s.nbrs ∧ AllContiguous adj s.labels ∧
      ∀ x, (∃ i, s.labels i = x) ↔ ∃ i, init i = x := by
  induction h with
  | start st rng => exact ⟨initNbrs_ok adj init, hc, fun _ => Iff.rfl⟩
  | ask s st rng h ih => exact ih
  | move s s' r border cand h hr hb hcand hm ih =>
    obtain ⟨h1, h2, h3⟩ := ih
    rw [mem_uniqueSorted, mem_arrayList] at hr
    obtain ⟨N, hN1, hN2⟩ := h1 r ((h3 r).2 hr)
    have : border = N := by
      unfold getNbrs at hb; rw [hN1] at hb; cases hb; rfl
    subst this
    have hadm := (mem_candidates hs hN2).1 hcand
    obtain ⟨s1, e1, e2, e3, _, _⟩ := applyMove_spec hs h1 h2 hadm
    rw [hm] at e1; cases e1
    refine ⟨e3, by rw [e2]; exact moved_contiguous h2 hadm, ?_⟩
    intro x; rw [e2, moved_image hadm, h3]

/-- C25: in every state the routine goes through, for every region `r` of the initial labelling the
dict has an entry, and the candidates for moving into `r` are exactly the admissible areas, each
listed once. -/
theorem c25_candidates {σ : Type} {k : Nat} {adj : Adj k} (hs : Symmetric adj) {init : Labels k}
    (hc : AllContiguous adj init) {s : AzpState σ k} (h : Visits adj init s) {r : Int}
    (hr : ∃ i, init i = r) :
    ∃ border, getNbrs s.nbrs r = .ok border ∧ (candidates adj s.labels border).Nodup ∧
      ∀ a, a ∈ candidates adj s.labels border ↔ Admissible adj s.labels a r := by
  obtain ⟨h1, h2, h3⟩ := visits_inv hs hc h
  obtain ⟨N, hN1, hN2⟩ := h1 r ((h3 r).2 hr)
  exact ⟨N, by unfold getNbrs; rw [hN1], candidates_nodup _ _ _, fun a => mem_candidates hs hN2⟩

theorem visits_try {σ : Type} {k : Nat} {adj : Adj k} {init : Labels k} (ops : StratOps σ k)
    {r : Int} (hr : r ∈ uniqueSorted (arrayList init)) {border : Fin k → Bool} :
    ∀ (fuel : Nat) (cands : List (Fin k)) (s : AzpState σ k) (p : Bool × AzpState σ k),
      Visits adj init s → getNbrs s.nbrs r = .ok border →
      (∀ c ∈ cands, c ∈ candidates adj s.labels border) →
      tryCandidates ops adj r fuel cands s = .ok p → Visits adj init p.2 := by
  intro fuel
  induction fuel with
  | zero =>
    intro cands s p hv hb hc h
    cases cands with
    | nil => unfold tryCandidates at h; cases h; exact hv
    | cons c cs => unfold tryCandidates at h; cases h
  | succ fuel ih =>
    intro cands s p hv hb hc h
    cases cands with
    | nil => unfold tryCandidates at h; cases h; exact hv
    | cons c cs =>
      unfold tryCandidates at h
      obtain ⟨pos, hpos, hpop⟩ := popRandomlyFrom_ne_nil (lst := c :: cs) (by simp) s.rng
      rw [hpop, Res.bind_ok] at h
      dsimp only at h
      rw [Res.bind_eq_ok] at h
      obtain ⟨⟨b, st', rng'⟩, _, h⟩ := h
      dsimp only at h
      have hv' := Visits.ask s st' rng' hv
      cases b with
      | true =>
        rw [if_pos rfl, Res.bind_eq_ok] at h
        obtain ⟨s', h1, h2⟩ := h
        cases h2
        exact .move _ _ r border _ hv' hr hb (hc _ (List.getElem_mem hpos)) h1
      | false =>
        rw [if_neg (by simp)] at h
        exact ih _ _ _ hv' hb (fun x hx => hc x (List.mem_of_mem_eraseIdx hx)) h

theorem visits_grow {σ : Type} {k : Nat} {adj : Adj k} {init : Labels k} (ops : StratOps σ k)
    {r : Int} (hr : r ∈ uniqueSorted (arrayList init)) :
    ∀ (fuel : Nat) (s s' : AzpState σ k), Visits adj init s →
      growRegion ops adj r fuel s = .ok s' → Visits adj init s' := by
  intro fuel
  induction fuel with
  | zero => intro s s' _ h; unfold growRegion at h; cases h
  | succ fuel ih =>
    intro s s' hv h
    unfold growRegion at h
    rw [Res.bind_eq_ok] at h
    obtain ⟨border, hb, h⟩ := h
    dsimp only at h
    rw [Res.bind_eq_ok] at h
    obtain ⟨⟨b, s1⟩, h1, h⟩ := h
    have hv1 := visits_try ops hr _ _ _ _ hv hb (fun _ h => h) h1
    dsimp only at h hv1
    cases b with
    | true => rw [if_pos rfl] at h; exact ih _ _ hv1 h
    | false => rw [if_neg (by simp)] at h; cases h; exact hv1

/-- C25 applies to the running program: after any number of completed rounds of the `while
distinct_regions` loop, the program is in one of the states described by `Visits`. -/
theorem c25_reached {σ : Type} {k : Nat} {adj : Adj k} {init : Labels k} (ops : StratOps σ k)
    (fuel : Nat) :
    ∀ (m : Nat) (regions : List Int) (s s' : AzpState σ k), Visits adj init s →
      (∀ r ∈ regions, r ∈ uniqueSorted (arrayList init)) →
      passRegions ops adj fuel m regions s = .ok s' → Visits adj init s' := by
  intro m
  induction m with
  | zero =>
    intro regions s s' hv hr h
    cases regions with
    | nil => unfold passRegions at h; cases h; exact hv
    | cons => unfold passRegions at h; cases h
  | succ m ih =>
    intro regions s s' hv hr h
    cases regions with
    | nil => unfold passRegions at h; cases h; exact hv
    | cons x xs =>
      unfold passRegions at h
      obtain ⟨pos, hpos, hpop⟩ := popRandomlyFrom_ne_nil (lst := x :: xs) (by simp) s.rng
      rw [hpop, Res.bind_ok] at h
      dsimp only at h
      rw [Res.bind_eq_ok] at h
      obtain ⟨s1, h1, h⟩ := h
      have hv1 := visits_grow ops (hr _ (List.getElem_mem hpos)) _ _ _
        (Visits.ask s s.strat s.rng.next hv) h1
      exact ih _ _ _ hv1 (fun r hr' => hr r (List.mem_of_mem_eraseIdx hr')) h

example : Visits (σ := Unit) path4 ![0, 0, 1, 1]
    ⟨![0, 0, 1, 1], initNbrs path4 ![0, 0, 1, 1] (uniqueSorted (arrayList ![0, 0, 1, 1])), (),
      fun _ => 0⟩ := .start _ _

end Region.Props
