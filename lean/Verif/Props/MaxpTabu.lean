import Verif.Lemmas.TabuMaxp
import Verif.Props.MaxpResults
/-
Property theorems C132: all results of the max-p heuristic with the basic tabu search.
-/
namespace Region.Props

open Region Spec

/-- What the basic tabu search makes of a clustering on every island, if only areas that can be spared may move, and
only without raising the dissimilarities. -/
def TabuOnIslands {n q : Nat} (adj : Adj n) (d : Fin n → Fin n → ℚ) (spat : Fin n → Fin q → ℚ) (thr : Fin q → ℚ)
    (len : Option Nat) (reps : Int) (init L : Labels n) : Prop :=
  ∀ u, MayResult (fun a b : Island adj u => adj a b) (dissimilarity fun a b : Island adj u => d a b)
    (MaxpAllows (fun a b : Island adj u => d a b) (onIsland adj u spat) thr) len reps (onIsland adj u init)
    (onIsland adj u L)

/-- The same with a bound on the number of rounds, on the components as the program makes them. -/
def TabuWithin {n q : Nat} {ρ : Type} (metric : ρ → ρ → ℚ) (adj : Adj n) (attr : Fin n → ρ) (spat : Fin n → Fin q → ℚ)
    (thr : Fin q → ℚ) (len : Option Nat) (reps : Int) (F : Nat) (init L : Labels n) : Prop :=
  ∀ c, c < nComponents adj → MayOutN (subAdj adj (shown (compArray adj init c)))
    (fun l => (pairwise metric).call l fun i => attr ((shown (compArray adj init c)).get i))
    (SpareMove metric (fun i => attr ((shown (compArray adj init c)).get i))
      (fun i => spat ((shown (compArray adj init c)).get i)) thr) len reps F
    (fun i => init ((shown (compArray adj init c)).get i)) (fun i => L ((shown (compArray adj init c)).get i))

section
variable {n q : Nat} {ρ : Type} {metric : ρ → ρ → ℚ} {adj : Adj n} {attr : Fin n → ρ} {spat : Fin n → Fin q → ℚ}
  {thr : Fin q → ℚ} {len : Option Nat} {reps : Int} {init L : Labels n}

theorem tabuWithin_mono {F F' : Nat} (hF : F ≤ F') (h : TabuWithin metric adj attr spat thr len reps F init L) :
    TabuWithin metric adj attr spat thr len reps F' init L := fun c hc => mayOutN_mono hF (h c hc)

theorem may_on_island (hsym : ∀ x y, metric x y = metric y x) (hm : ∀ v, init v ≠ -1) (u : Fin n) :
    MayResult (subAdj adj (shown (compArray adj init (compLabels adj u))))
      (fun l => (pairwise metric).call l fun i => attr ((shown (compArray adj init (compLabels adj u))).get i))
      (SpareMove metric (fun i => attr ((shown (compArray adj init (compLabels adj u))).get i))
        (fun i => spat ((shown (compArray adj init (compLabels adj u))).get i)) thr) len reps
      (fun i => init ((shown (compArray adj init (compLabels adj u))).get i))
      (fun i => L ((shown (compArray adj init (compLabels adj u))).get i)) ↔
    MayResult (fun a b : Island adj u => adj a b)
      (dissimilarity fun a b : Island adj u => metric (attr a) (attr b))
      (MaxpAllows (fun a b : Island adj u => metric (attr a) (attr b)) (onIsland adj u spat) thr) len reps
      (onIsland adj u init) (onIsland adj u L) := by
  have hlt : ∀ l l' : Island adj u → Int, (pairwise metric).call (l ∘ islandEquiv adj init hm u)
      (fun i => attr ((shown (compArray adj init (compLabels adj u))).get i)) <
      (pairwise metric).call (l' ∘ islandEquiv adj init hm u)
      (fun i => attr ((shown (compArray adj init (compLabels adj u))).get i)) ↔
      dissimilarity (fun a b : Island adj u => metric (attr a) (attr b)) l <
      dissimilarity (fun a b : Island adj u => metric (attr a) (attr b)) l' := by
    intro l l'
    rw [pairwise_island hsym attr init hm, pairwise_island hsym attr init hm]
    exact div_lt_div_iff_of_pos_right (by norm_num)
  have hmay : ∀ (l : Island adj u → Int) a r,
      SpareMove metric (fun i => attr ((shown (compArray adj init (compLabels adj u))).get i))
        (fun i => spat ((shown (compArray adj init (compLabels adj u))).get i)) thr
        (l ∘ islandEquiv adj init hm u) ((islandEquiv adj init hm u).symm a) r ↔
      MaxpAllows (fun a b : Island adj u => metric (attr a) (attr b)) (onIsland adj u spat) thr l a r := by
    intro l a r
    unfold SpareMove MaxpAllows
    rw [moved_pull, ← not_lt, hlt, not_lt]
    refine and_congr_left' ?_
    have := dispensable_comp (islandEquiv adj init hm u) (onIsland adj u spat) thr l
      ((islandEquiv adj init hm u).symm a)
    rw [Equiv.apply_symm_apply] at this
    exact this
  have hadj : subAdj adj (shown (compArray adj init (compLabels adj u))) =
      fun a b => adj (islandEquiv adj init hm u a) (islandEquiv adj init hm u b) := rfl
  have := mayResult_comp (islandEquiv adj init hm u) (islandEquiv_lt hm u) (adj := fun a b => adj a b)
    (value := dissimilarity fun a b : Island adj u => metric (attr a) (attr b))
    (value' := fun l => (pairwise metric).call l fun i => attr ((shown (compArray adj init (compLabels adj u))).get i))
    (may := MaxpAllows (fun a b : Island adj u => metric (attr a) (attr b)) (onIsland adj u spat) thr)
    (may' := SpareMove metric (fun i => attr ((shown (compArray adj init (compLabels adj u))).get i))
        (fun i => spat ((shown (compArray adj init (compLabels adj u))).get i)) thr) (len := len) (reps := reps)
    hlt hmay (onIsland adj u init) (onIsland adj u L)
  rw [hadj]
  exact this

theorem tabuWithin_iff (hsym : ∀ x y, metric x y = metric y x) (hm : ∀ v, init v ≠ -1) :
    (∃ F, TabuWithin metric adj attr spat thr len reps F init L) ↔
      TabuOnIslands adj (fun a b => metric (attr a) (attr b)) spat thr len reps init L := by
  constructor
  · rintro ⟨F, h⟩ u
    exact (may_on_island hsym hm u).1 (mayOutN_iff.1 ⟨F, h _ (compLabels_lt adj u)⟩)
  · intro h
    have h1 := fun u => mayOutN_iff.2 ((may_on_island (metric := metric) (attr := attr) (spat := spat) (thr := thr)
      (len := len) (reps := reps) (L := L) hsym hm u).2 (h u))
    choose F hF using h1
    refine ⟨Finset.univ.sup F, fun c hlt => ?_⟩
    obtain ⟨u, rfl⟩ := compLabels_surj adj hlt
    exact mayOutN_mono (Finset.le_sup (Finset.mem_univ u)) (hF u)

end

/-- C132, the local search: from a given start, however many decorators have been put around the default
strategy. -/
theorem c132_search {n q : Nat} {ρ : Type} (o : MstOrder) (expf : ℚ → ℚ) {metric : ρ → ρ → ℚ}
    (hd : Dissimilarity metric) {adj : Adj n} (hs : Symmetric adj) (attr : Fin n → ρ) {spat : Fin n → Fin q → ℚ}
    (hpos : ∀ v j, 0 ≤ spat v j) (thr : Fin q → ℚ) (len : Option Nat) (reps : Int) (F p : Nat) :
    ExactSearch (basicTabuSearch o expf (pairwise metric) F len reps adj attr) p (StartOk adj p)
      (fun st => st.Decorated spat thr ∧ st.isMaxp = true)
      (TabuWithin metric adj attr spat thr len reps F) := by
  have step : ∀ {init : Labels n} (hc : AllContiguous adj init) (hm : ∀ v, init v ≠ -1) (c : Nat)
      (hlt : c < nComponents adj),
      ExactStep adj attr (fun idx a init at' (st : Strat n q) rng =>
        basicComponent (Strat.ops expf (fun i => idx.get i) at' (pairwise metric)) (pairwise metric) at' a len reps F
          init (st.start ((pairwise metric).call init at')) rng)
        (fun st => st.Decorated spat thr ∧ st.isMaxp = true)
        (fun idx => MayOutN (subAdj adj idx) (fun l => (pairwise metric).call l fun i => attr (idx.get i))
          (SpareMove metric (fun i => attr (idx.get i)) (fun i => spat (idx.get i)) thr) len reps F)
        (compArray adj init c) := by
    intro init hc hm c hlt
    have hk : 0 < (shown (compArray adj init c)).length := List.length_pos_iff.2 (areas_ne hm hlt)
    have hcont := comp_contiguous hc c
    have hget := compArray_get adj init c
    have hstart : ∀ {st : Strat n q} (v : ℚ), st.Decorated spat thr ∧ st.isMaxp = true →
        (st.start v).Decorated spat thr ∧ (st.start v).isMaxp = true :=
      fun v h => ⟨(h.1.start v).decorated, (Strat.isMaxp_start v _).trans h.2⟩
    constructor
    · rintro st rng out st' rng' hst h
      rw [hget] at h ⊢
      exact mayComponent_sound hd (decorated_rules hd.symm hd.zero _ hpos) (subAdj_symm hs _) hk hcont (hstart _ hst) h
    · rintro st out hst h
      rw [hget] at h ⊢
      exact mayComponent_complete hd (decorated_rules hd.symm hd.zero _ hpos) (subAdj_symm hs _) hk hcont
        (hstart _ hst) h
  constructor
  · rintro init st r out st' r' ⟨hc, hp, hm⟩ hst h
    change (basicTabuFit o expf (pairwise metric) F len reps adj attr p (some init) st r >>= _) = _ at h
    rw [Res.bind_eq_ok] at h
    obtain ⟨⟨L, st1, r1⟩, h1, h2⟩ := h
    cases h2
    obtain ⟨⟨_, h3⟩, h4⟩ := fitWith_sound o hc (by rw [hp]) (step hc hm) hst h1
    exact ⟨L, rfl, h3, h4⟩
  · rintro init st L ⟨hc, hp, hm⟩ hst h
    obtain ⟨st', h1, h2⟩ := fitWith_complete (p := (p : Int)) o hc (by rw [hp])
      (step hc hm) hst (L := L) (fun v hv => absurd hv (hm v)) h
    refine ⟨st', h1, fun r' => ?_⟩
    obtain ⟨r, h2⟩ := h2 r'
    refine ⟨r, ?_⟩
    change (basicTabuFit o expf (pairwise metric) F len reps adj attr p (some init) st r >>= _) = _
    have : basicTabuFit o expf (pairwise metric) F len reps adj attr p (some init) st r = .ok (L, st', r') := h2
    rw [this, Res.bind_ok]

/-- What bounds the rounds can be taken out of the results of the heuristic. -/
theorem maxpResult_bound {V Q : Type} [DecidableEq V] [Fintype V] {adj : V → V → Bool} {d : V → V → ℚ}
    {spat : V → Q → ℚ} {thr : Q → ℚ} {k p : Nat} {L : V → Int} {Z : (V → Int) → (V → Int) → Prop}
    {ZF : Nat → (V → Int) → (V → Int) → Prop}
    (hmono : ∀ {F F' init M}, F ≤ F' → ZF F init M → ZF F' init M)
    (hiff : ∀ {P : List (Finset V)} {init M}, Numbered P init → ((∃ F, ZF F init M) ↔ Z init M)) :
    (∃ F, MaxpResult adj d spat thr k (ZF F) p L) ↔ MaxpResult adj d spat thr k Z p L := by
  constructor
  · rintro ⟨F, runs, h1, h2, h3, h4, parts, h5, results, h6, h7⟩
    refine ⟨runs, h1, h2, h3, h4, parts, h5, results, h6.imp ?_, h7⟩
    rintro P M ⟨init, g1, g2⟩
    exact ⟨init, g1, (hiff g1).1 ⟨F, g2⟩⟩
  · rintro ⟨runs, h1, h2, h3, h4, parts, h5, results, h6, h7⟩
    suffices ∃ F, List.Forall₂ (fun P M => ∃ init, Numbered P init ∧ ZF F init M)
        (List.replicate parts.length parts).flatten results by
      obtain ⟨F, h6⟩ := this
      exact ⟨F, runs, h1, h2, h3, h4, parts, h5, results, h6, h7⟩
    clear h7
    generalize (List.replicate parts.length parts).flatten = Ps at h6
    induction h6 with
    | nil => exact ⟨0, .nil⟩
    | cons h _ ih =>
      obtain ⟨F, ih⟩ := ih
      obtain ⟨init, g1, g2⟩ := h
      obtain ⟨F', g2⟩ := (hiff g1).2 g2
      refine ⟨max F F', .cons ⟨init, g1, hmono (le_max_right _ _) g2⟩ (ih.imp ?_)⟩
      rintro P M ⟨init, g1, g2⟩
      exact ⟨init, g1, hmono (le_max_left _ _) g2⟩

/-- C132: with the basic tabu search as local search, `MaxPRegionsHeu.fit` can end with exactly the results of the
described heuristic. -/
theorem c132_fit {n q : Nat} {ρ : Type} (o : MstOrder) (expf : ℚ → ℚ) {metric : ρ → ρ → ℚ}
    (hd : Dissimilarity metric) {adj : Adj n} (hs : Symmetric adj) (hloop : ∀ v, adj v v = false) (attr : Fin n → ρ)
    {spat : Fin n → Fin q → ℚ} (hpos : ∀ v j, 0 ≤ spat v j) (thr : Fin q → ℚ) {maxIt : Nat} (hit : 0 < maxIt)
    (len : Option Nat) (reps : Int) {st : Strat n q} (hst : st.Decorated spat thr) (p : Nat) (L : Labels n) :
    (∃ F r st' r', maxpFit (basicTabuSearch o expf (pairwise metric) F len reps adj attr) metric (pairwise metric) adj
      attr spat thr maxIt st r = .ok (p, some L, st', r')) ↔
      MaxpResult adj (fun a b => metric (attr a) (attr b)) spat thr maxIt
        (TabuOnIslands adj (fun a b => metric (attr a) (attr b)) spat thr len reps) p L := by
  rw [← maxpResult_bound (ZF := TabuWithin metric adj attr spat thr len reps) tabuWithin_mono]
  · refine exists_congr fun F => ?_
    refine maxpFit_exact (S := fun st => st.Decorated spat thr ∧ st.isMaxp = true)
      (S0 := fun st => st.Decorated spat thr) hs hloop
      (c132_search o expf hd hs attr hpos thr len reps F) (fun st h => ⟨⟨rfl, rfl, h⟩, rfl⟩) (fun _ h => h.1)
      (fun l l' => ?_) hit hst p L
    rw [dissimilarity_fin (fun a b => hd.symm _ _), dissimilarity_fin (fun a b => hd.symm _ _)]
    change pairwiseCall metric _ _ < pairwiseCall metric _ _ ↔ _
    rw [pairwiseCall_eq, pairwiseCall_eq]
    constructor <;> intro h <;> linarith
  · intro P init M hN
    refine tabuWithin_iff hd.symm fun v => ?_
    obtain ⟨i, -, h, -⟩ := hN v
    rw [h]
    omega

/-- C132, the local search by itself: `AZPBasicTabu.fit` with the strategy of the heuristic, from a feasible start. -/
theorem c132_start {n q : Nat} {ρ : Type} (o : MstOrder) (expf : ℚ → ℚ) {metric : ρ → ρ → ℚ}
    (hd : Dissimilarity metric) {adj : Adj n} (hs : Symmetric adj) (attr : Fin n → ρ)
    {spat : Fin n → Fin q → ℚ} (hpos : ∀ v j, 0 ≤ spat v j) (thr : Fin q → ℚ) (len : Option Nat) (reps : Int)
    {st : Strat n q} (hst : st.Decorated spat thr) (hx : st.isMaxp = true) {p : Nat} {init : Labels n}
    (hi : StartOk adj p init) (L : Labels n) :
    (∃ F r st' r', basicTabuFit o expf (pairwise metric) F len reps adj attr p (some init) st r =
      .ok (L, st', r')) ↔
      TabuOnIslands adj (fun a b => metric (attr a) (attr b)) spat thr len reps init L := by
  rw [← tabuWithin_iff hd.symm hi.2.2]
  refine exists_congr fun F => ?_
  have hex := c132_search o expf hd hs attr hpos thr len reps F p
  constructor
  · rintro ⟨r, st', r', h⟩
    obtain ⟨L', e, hZ, -⟩ := hex.sound init st r (some L) st' r' hi ⟨hst, hx⟩ (by
      change (basicTabuFit o expf (pairwise metric) F len reps adj attr p (some init) st r >>= _) = _
      rw [h, Res.bind_ok])
    cases e
    exact hZ
  · intro h
    obtain ⟨st', -, h1⟩ := hex.complete init st L hi ⟨hst, hx⟩ h
    obtain ⟨r, h1⟩ := h1 fun _ => 0
    change (basicTabuFit o expf (pairwise metric) F len reps adj attr p (some init) st r >>= _) = _ at h1
    rw [Res.bind_eq_ok] at h1
    obtain ⟨⟨L', st1, r1⟩, h2, h3⟩ := h1
    cases h3
    exact ⟨r, _, _, h2⟩

/-- C132: if on every island the best move of all does harm or takes an area that cannot be spared, nothing is moved,
whatever other moves there are. -/
theorem c132_refused {n q : Nat} {ρ : Type} (o : MstOrder) (expf : ℚ → ℚ) {metric : ρ → ρ → ℚ}
    (hd : Dissimilarity metric) {adj : Adj n} (hs : Symmetric adj) (attr : Fin n → ρ)
    {spat : Fin n → Fin q → ℚ} (hpos : ∀ v j, 0 ≤ spat v j) (thr : Fin q → ℚ) (len : Option Nat) (reps : Int)
    {st : Strat n q} (hst : st.Decorated spat thr) (hx : st.isMaxp = true) {p : Nat} {init : Labels n}
    (hi : StartOk adj p init)
    (hno : ∀ u, Halted (fun a b : Island adj u => adj a b)
      (dissimilarity fun a b : Island adj u => metric (attr a) (attr b))
      (MaxpAllows (fun a b : Island adj u => metric (attr a) (attr b)) (onIsland adj u spat) thr) len
      ⟨onIsland adj u init, [], [], False⟩) (L : Labels n) :
    (∃ F r st' r', basicTabuFit o expf (pairwise metric) F len reps adj attr p (some init) st r =
      .ok (L, st', r')) ↔ L = init := by
  rw [c132_start o expf hd hs attr hpos thr len reps hst hx hi]
  constructor
  · intro h
    funext v
    exact congrFun ((may_stays (fun h => h.2) (hno v)).1 (h v)) ⟨v, .refl⟩
  · rintro rfl u
    exact (may_stays (fun h => h.2) (hno u)).2 rfl

/-- The path of five areas with the values 0, 10, 10, 12, 13 … -/
def steps5 : Fin 5 → Row 1 := fun v _ => ![0, 10, 10, 12, 13] v

/-- … and a quantity of which every region needs 3. -/
def weights5 : Fin 5 → Fin 1 → ℚ := fun v _ => ![1, 2, 3, 1, 3] v

theorem weights5_nonneg : ∀ v j, 0 ≤ weights5 v j := by decide +kernel

/-- A clustering of the path. -/
def blocked5 : Labels 5 := ![2, 2, 1, 1, 0]

theorem steps5_lt (L L' : Labels 5) :
    dissimilarity (fun a b => manhattan (steps5 a) (steps5 b)) L <
      dissimilarity (fun a b => manhattan (steps5 a) (steps5 b)) L' ↔
    (pairwise manhattan).call L steps5 < (pairwise manhattan).call L' steps5 := by
  rw [dissimilarity_fin (fun a b => manhattan_comm _ _), dissimilarity_fin (fun a b => manhattan_comm _ _)]
  change _ ↔ pairwiseCall manhattan L steps5 < pairwiseCall manhattan L' steps5
  rw [pairwiseCall_eq, pairwiseCall_eq]
  constructor <;> intro h <;> linarith

/-- C132: the heuristic can end with a clustering in which an area can be spared and would be better off in a
neighbouring region: the best move was refused, and no other one was looked at.  The default local search makes that
other move. -/
theorem c132_blocked :
    (∃ r, (∃ st' r', maxpFit (basicTabuSearch .rowMajor (fun _ => 0) (pairwise manhattan) 5 none 1 path5 steps5)
        manhattan (pairwise manhattan) path5 steps5 weights5 (fun _ => 3) 1 (.azp 0) r =
          .ok (3, some blocked5, st', r')) ∧
      ∃ st' r', maxpFit (azpSearch .rowMajor (fun _ => 0) (pairwise manhattan) 4000 path5 steps5) manhattan
        (pairwise manhattan) path5 steps5 weights5 (fun _ => 3) 1 (.azp 0) r =
          .ok (3, some (moved blocked5 3 0), st', r')) ∧
    Admissible path5 blocked5 3 0 ∧ Dispensable weights5 (fun _ => 3) blocked5 3 ∧
    dissimilarity (fun a b => manhattan (steps5 a) (steps5 b)) (moved blocked5 3 0) <
      dissimilarity (fun a b => manhattan (steps5 a) (steps5 b)) blocked5 := by
  refine ⟨⟨fun i => [4, 3].getD i 0, ?_, ?_⟩, ?_, ?_, ?_⟩
  · have : (match maxpFit (basicTabuSearch .rowMajor (fun _ => 0) (pairwise manhattan) 5 none 1 path5 steps5)
        manhattan (pairwise manhattan) path5 steps5 weights5 (fun _ => 3) 1 (.azp 0) (fun i => [4, 3].getD i 0) with
      | .ok (p, some L, _, _) => some (p, L)
      | _ => none) = some (3, blocked5) := by decide +kernel
    split at this
    · next p L st' r' h =>
      cases this
      exact ⟨_, _, h⟩
    · cases this
  · have : (match maxpFit (azpSearch .rowMajor (fun _ => 0) (pairwise manhattan) 4000 path5 steps5)
        manhattan (pairwise manhattan) path5 steps5 weights5 (fun _ => 3) 1 (.azp 0) (fun i => [4, 3].getD i 0) with
      | .ok (p, some L, _, _) => some (p, L)
      | _ => none) = some (3, moved blocked5 3 0) := by decide +kernel
    split at this
    · next p L st' r' h =>
      cases this
      exact ⟨_, _, h⟩
    · cases this
  · exact (possibleMoves_admissible (adj := path5) (L := blocked5) (t := ⟨[], none⟩) (m := ⟨3, 1, 0⟩) (by decide +kernel)).2.1
  · exact maxpBlocks_iff.1 (by decide +kernel)
  · rw [steps5_lt]
    decide +kernel

/-- The case of `c132_fit` in which the best move is refused … -/
example : MaxpResult path5 (fun a b => manhattan (steps5 a) (steps5 b)) weights5 (fun _ => 3) 1
    (TabuOnIslands path5 (fun a b => manhattan (steps5 a) (steps5 b)) weights5 (fun _ => 3) none 1) 3
    blocked5 := by
  obtain ⟨⟨r, ⟨st', r', h⟩, -⟩, -⟩ := c132_blocked
  exact (c132_fit .rowMajor (fun _ => 0) manhattan_dissimilarity path5_symm (by decide) steps5 weights5_nonneg _
    Nat.one_pos none 1 (st := .azp 0) trivial 3 _).1 ⟨5, r, st', r', h⟩

/-- On a connected map the areas of the only island are all areas. -/
theorem halted_connected {n q : Nat} {adj : Adj n} (hcon : Connected adj) {d : Fin n → Fin n → ℚ}
    {spat : Fin n → Fin q → ℚ} {thr : Fin q → ℚ} {len : Option Nat} {init : Labels n}
    (h : Halted adj (dissimilarity d) (MaxpAllows d spat thr) len ⟨init, [], [], False⟩) (u : Fin n) :
    Halted (fun a b : Island adj u => adj a b) (dissimilarity fun a b : Island adj u => d a b)
      (MaxpAllows (fun a b : Island adj u => d a b) (onIsland adj u spat) thr) len
      ⟨onIsland adj u init, [], [], False⟩ := by
  let e : Island adj u ≃ Fin n := Equiv.subtypeUnivEquiv fun v => hcon.2 u v
  refine halted_pull e (fun a b => Iff.rfl) (adj := adj) (value := dissimilarity d) (may := MaxpAllows d spat thr)
    (fun L L' => ?_) (fun L a r => ?_) h
  · have := dissimilarity_comp e d
    rw [← this L, ← this L']
    rfl
  · unfold MaxpAllows
    have hdisp := dispensable_comp e spat thr L (e.symm a)
    rw [Equiv.apply_symm_apply] at hdisp
    rw [moved_pull, ← dissimilarity_comp e d L, ← dissimilarity_comp e d (moved L a r)]
    exact and_congr hdisp Iff.rfl

theorem blocked5_halted (len : Option Nat) : Halted path5 (dissimilarity fun a b => manhattan (steps5 a) (steps5 b))
    (MaxpAllows (fun a b => manhattan (steps5 a) (steps5 b)) weights5 fun _ => 3) len
    ⟨blocked5, [], [], False⟩ := by
  obtain ⟨b, h1, h2⟩ := bestMove_best (pairwise_exact manhattan_comm manhattan_self) (pairwise_total manhattan)
    (attr := steps5) path5_symm (shows_begin (len := len) (init := blocked5) () fun _ => 0)
  have hb : bestMove (pairwise manhattan) steps5 blocked5 (possibleMoves path5 blocked5 ⟨[], none⟩) 0 none =
      .ok (some (0, ⟨1, 2, 1⟩, -8)) := by decide +kernel
  have h1 : bestMove (pairwise manhattan) steps5 blocked5 (possibleMoves path5 blocked5 ⟨[], none⟩) 0 none = .ok b := h1
  rw [hb] at h1
  cases h1
  rcases h2 with ⟨h, -⟩ | ⟨j, m, d, h, -, hbest, -⟩
  · cases h
  · cases h
    intro m' hm'
    have hbest' : Best path5 (dissimilarity fun a b => manhattan (steps5 a) (steps5 b)) len
        ⟨blocked5, [], [], False⟩ ⟨1, 2, 1⟩ :=
      best_congr (value' := fun L => (pairwise manhattan).call L steps5) (fun L L' => (steps5_lt L L').symm) hbest
    cases best_unique hm' hbest'
    right
    intro h
    have := maxpBlocks_iff.2 h.1
    revert this
    decide +kernel

/-- … and no other clustering can come out of it. -/
example (len : Option Nat) (reps : Int) (L : Labels 5) :
    (∃ F r st' r', basicTabuFit .rowMajor (fun _ => 0) (pairwise manhattan) F len reps path5 steps5 3
      (some blocked5) (.maxp weights5 (fun _ => 3) 0 (.azp 0)) r = .ok (L, st', r')) ↔
      L = blocked5 := by
  refine c132_refused .rowMajor _ manhattan_dissimilarity path5_symm steps5 weights5_nonneg _ len reps
    (st := .maxp weights5 (fun _ => 3) 0 (.azp 0)) ⟨rfl, rfl, trivial⟩ rfl (p := 3) ?_
    (halted_connected ((nComponents_eq_one_iff _).1 (by decide +kernel)) (blocked5_halted len)) L
  have h := (c04_assert_feasible_ok blocked5 path5 (some 3)).1 (by decide +kernel)
  exact ⟨h.1, by exact_mod_cast h.2 3 rfl, by decide⟩

/-- If a region needs one area only, the search goes on from there. -/
example : TabuOnIslands path5 (fun a b => manhattan (steps5 a) (steps5 b)) (fun _ (_ : Fin 1) => 1) (fun _ => 1)
    (some 2) 1 blocked5 ![2, 1, 1, 0, 0] := by
  have h := (c04_assert_feasible_ok blocked5 path5 (some 3)).1 (by decide +kernel)
  rw [← c132_start .rowMajor (fun _ => 0) manhattan_dissimilarity path5_symm steps5 (by decide +kernel) (fun _ => 1)
    (some 2) 1 (st := .maxp (fun _ (_ : Fin 1) => 1) (fun _ => 1) 0 (.azp 0)) ⟨rfl, rfl, trivial⟩ rfl (p := 3)
    ⟨h.1, by exact_mod_cast h.2 3 rfl, by decide⟩]
  have : (match basicTabuFit .rowMajor (fun _ => 0) (pairwise manhattan) 9 (some 2) 1 path5 steps5 3
      (some blocked5) (.maxp (fun _ (_ : Fin 1) => 1) (fun _ => 1) 0 (.azp 0)) (fun _ => 0) with
    | .ok (L, _, _) => some L
    | _ => none) = some ![2, 1, 1, 0, 0] := by decide +kernel
  split at this
  · next L st' r' h =>
    cases this
    exact ⟨9, fun _ => 0, _, _, h⟩
  · cases this

end Region.Props
