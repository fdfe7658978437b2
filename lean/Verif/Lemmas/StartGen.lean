import Verif.Lemmas.StartForest
import Verif.Lemmas.AzpExactFit
/-
Lemmas: the runs of `generate_initial_sol`, and of `fit` without initial labels.
-/
namespace Region
open Spec

/-- A generator step yields the array `y` for suitable draws, whatever is to be drawn afterwards. -/
def CanYield {n : Nat} (s : Rng → Res (Yielded n × Rng)) (y : Labels n) : Prop :=
  ∀ r', ∃ r0, s r0 = .ok (.array y, r')

section
variable {o : MstOrder} {n : Nat} {adj : Adj n}

theorem divideComponent_sound {c : Nat} (hc : c < nComponents adj) {k built : Int} {y : Labels n}
    (h : Yields (divideComponent o adj c k built) y) :
    ∃ K, K.Sublist (compTree o adj c) ∧ (K.length : Int) + k = (compIdx adj c).length ∧
      y = scatter (compIdx adj c) (fun i => (compLabels (adjOf K) i : Int) + built) fun _ => -1 := by
  obtain ⟨r, r', h⟩ := h
  unfold divideComponent at h
  dsimp only at h
  rw [Res.bind_eq_ok] at h
  obtain ⟨⟨labs, r1⟩, h1, h2⟩ := h
  cases h2
  obtain ⟨K, h3, h4, rfl⟩ := randomlyDivide_sound o (connected_component_subAdj adj hc) h1
  exact ⟨K, h3, h4, rfl⟩

theorem divideComponent_complete {c : Nat} (hc : c < nComponents adj) {k built : Int} (hk1 : 1 ≤ k)
    {K : List (Fin (compIdx adj c).length × Fin (compIdx adj c).length)} (hK : K.Sublist (compTree o adj c))
    (hl : (K.length : Int) + k = (compIdx adj c).length) :
    CanYield (divideComponent o adj c k built)
      (scatter (compIdx adj c) (fun i => (compLabels (adjOf K) i : Int) + built) fun _ => -1) := by
  intro r'
  obtain ⟨r0, h⟩ := randomlyDivide_complete o (connected_component_subAdj adj hc) hk1
    (show k ≤ (compIdx adj c).length by omega) hK hl r'
  refine ⟨r0, ?_⟩
  unfold divideComponent
  simp only [h]
  rfl

theorem divideSteps_eq (d : IntDict) : ∀ (m a : Nat),
    divideSteps o adj d (List.range' a m) (∑ i ∈ Finset.range a, (d.get i).getD 0) =
      (List.range' a m).map fun c =>
        divideComponent o adj c ((d.get c).getD 0) (∑ i ∈ Finset.range c, (d.get i).getD 0) := by
  intro m
  induction m with
  | zero => intro a; rfl
  | succ m ih =>
    intro a
    rw [List.range'_succ, List.map_cons, ← ih (a + 1)]
    unfold divideSteps
    rw [Finset.sum_range_succ]
    cases m <;> rfl

theorem generateInitialSol_sound {p : Int} {r r' : Rng} {gen : Gen n}
    (hn : 0 < n) (hp : p ≤ n) (hp1 : p ≠ 1) (hc : (nComponents adj : Int) ≤ p)
    (h : generateInitialSol o adj p r = .ok (gen, r')) {ys : List (Labels n)}
    (hys : List.Forall₂ Yields gen ys) :
    ∃ K, K ⊆ forestOf o adj ∧ (K.card : Int) = n - p ∧ ys = separateComponents adj (cutLabels o adj K) := by
  have hrange := uniqueSorted_compLabels adj
  have hlen : (arrayList (compLabels adj)).length = n := by simp [arrayList]
  obtain ⟨d, r1, h1, h2, h3, h4, h5⟩ := distributeRegions_spec (arrayList (compLabels adj)) p r
    (by
      obtain ⟨v, hv⟩ := compLabels_surj adj (nComponents_pos hn adj)
      exact mem_arrayList.2 ⟨v, hv⟩)
    (by rw [hrange, List.length_range]; exact hc) (by rw [hlen]; exact hp)
  rw [hrange] at h2
  unfold generateInitialSol at h
  rw [if_neg (by omega), if_neg (by omega), if_neg hp1, if_neg (by omega), h1] at h
  cases h
  rw [h2, List.range_eq_range'] at hys
  have heq := divideSteps_eq (o := o) (adj := adj) d (nComponents adj) 0
  rw [Finset.sum_range_zero] at heq
  rw [heq, ← List.range_eq_range', List.forall₂_map_left_iff, List.forall₂_iff_get] at hys
  obtain ⟨hl, hget⟩ := hys
  rw [List.length_range] at hl
  have hyc : ∀ c (hc : c < nComponents adj), ∃ K, K.Sublist (compTree o adj c) ∧
      (K.length : Int) + (d.get c).getD 0 = (compIdx adj c).length ∧
      ys[c]'(by omega) = scatter (compIdx adj c) (fun i => (compLabels (adjOf K) i : Int) +
        ∑ i ∈ Finset.range c, (d.get i).getD 0) fun _ => -1 := by
    intro c hc
    have := hget c (by rwa [List.length_range]) (by omega)
    simp only [List.get_eq_getElem, List.getElem_range] at this
    exact divideComponent_sound hc this
  choose! Ks hK1 hK2 hK3 using hyc
  set K : Finset (Fin n × Fin n) :=
    (Finset.range (nComponents adj)).biUnion fun c => ((Ks c).map (liftLink adj c)).toFinset with hKdef
  have hsub : K ⊆ forestOf o adj := by
    intro e he
    simp only [hKdef, Finset.mem_biUnion, Finset.mem_range, List.mem_toFinset, List.mem_map] at he
    obtain ⟨c, hc, e0, he0, rfl⟩ := he
    exact mem_forestOf.2 ⟨c, hc, e0, (hK1 c hc).subset he0, rfl⟩
  have hpart : ∀ c, c < nComponents adj → part o adj K c = Ks c := by
    intro c hc
    rw [← sublist_eq_filter (hK1 c hc) (compTree_forest c).1]
    unfold part
    apply List.filter_congr
    intro e _
    rw [decide_eq_decide]
    simp only [hKdef, Finset.mem_biUnion, Finset.mem_range, List.mem_toFinset, List.mem_map]
    constructor
    · rintro ⟨c', hc', e0, he0, heq⟩
      have : c' = c := by
        rw [← liftLink_comp e0, heq, liftLink_comp]
      subst this
      rwa [← liftLink_inj heq]
    · exact fun h => ⟨c, hc, e, h, rfl⟩
  have hpieces : ∀ c, c < nComponents adj → piecesOf o adj K c = (d.get c).getD 0 := by
    intro c hc
    have := hK2 c hc
    unfold piecesOf
    rw [hpart c hc]
    omega
  have hbefore : ∀ c, c ≤ nComponents adj →
      piecesBefore o adj K c = ∑ i ∈ Finset.range c, (d.get i).getD 0 := by
    intro c hc
    exact Finset.sum_congr rfl fun i hi => hpieces i (by rw [Finset.mem_range] at hi; omega)
  refine ⟨K, hsub, ?_, ?_⟩
  · have h6 := piecesBefore_all hsub
    rw [hbefore _ le_rfl, ← sum_map_range, ← h2] at h6
    unfold IntDict.total at h3
    omega
  · rw [separateComponents_eq]
    apply List.ext_getElem
    · simp [hl]
    · intro c hc1 hc2
      have hc : c < nComponents adj := by omega
      rw [List.getElem_map, List.getElem_range, compArray_cutLabels, hK3 c hc]
      unfold pieceArray
      rw [hbefore c hc.le, hpart c hc]

theorem generateInitialSol_complete {p : Int} (hn : 0 < n) (hp : p ≤ n) (hp1 : p ≠ 1)
    (hc : (nComponents adj : Int) ≤ p) {K : Finset (Fin n × Fin n)} (hK : K ⊆ forestOf o adj)
    (hcard : (K.card : Int) = n - p) :
    ∃ gen : Gen n, (∀ r', ∃ r0, generateInitialSol o adj p r0 = .ok (gen, r')) ∧
      List.Forall₂ CanYield gen (separateComponents adj (cutLabels o adj K)) := by
  have hpc : ∀ c, c < nComponents adj → 1 ≤ piecesOf o adj K c ∧
      piecesOf o adj K c ≤ (compIdx adj c).length := by
    intro c hc
    have h1 := compTree_length (o := o) hc
    have h2 := (part_sublist (o := o) (adj := adj) K c).length_le
    unfold piecesOf
    omega
  obtain ⟨d, h1, h2, h3⟩ := distributeRegions_complete (uniqueSorted_compLabels adj) (nComponents_pos hn adj)
    (k := piecesOf o adj K) (p := p)
    (fun c hc => by rw [count_arrayList]; exact hpc c hc)
    (by
      have := piecesBefore_all hK
      unfold piecesBefore at this
      omega)
  have hget : ∀ c, c < nComponents adj → (d.get c).getD 0 = piecesOf o adj K c := by
    intro c hc
    rw [h2 c hc]; rfl
  refine ⟨divideSteps o adj d d.keys 0, ?_, ?_⟩
  · intro r'
    obtain ⟨r0, h⟩ := h3 r'
    refine ⟨r0, ?_⟩
    unfold generateInitialSol
    rw [if_neg (by omega), if_neg (by omega), if_neg hp1, if_neg (by omega), h]
    rfl
  · have heq := divideSteps_eq (o := o) (adj := adj) d (nComponents adj) 0
    rw [Finset.sum_range_zero] at heq
    rw [h1, List.range_eq_range', heq, ← List.range_eq_range', separateComponents_eq,
      List.forall₂_map_left_iff, List.forall₂_map_right_iff, List.forall₂_same]
    intro c hc
    rw [List.mem_range] at hc
    rw [compArray_cutLabels, hget c hc]
    have hb : ∑ i ∈ Finset.range c, (d.get i).getD 0 = piecesBefore o adj K c :=
      Finset.sum_congr rfl fun i hi => hget i (by rw [Finset.mem_range] at hi; omega)
    rw [hb]
    refine divideComponent_complete hc (hpc c hc).1 (part_sublist K c) ?_
    unfold piecesOf
    omega

end

/-! ### fit -/

section Fit
variable {σ ρ : Type} {n : Nat} {adj : Adj n} {attr : Fin n → ρ} {comp : CompFn σ n ρ}
  {S : σ → Prop} {Z : (idx : List (Fin n)) → Labels idx.length → Labels idx.length → Prop}

/-- If all arrays which the generator can yield are treated exactly, a run treats some of them so. -/
theorem fitLoop_gen_sound : ∀ {gen : Gen n},
    (∀ s ∈ gen, ∀ y, Yields s y → ExactStep adj attr comp S Z y) →
    ∀ {L L' : Labels n} {st st' : σ} {rng rng' : Rng}, S st →
    fitLoop adj attr comp gen L st rng = .ok (L', st', rng') →
    ∃ ys, List.Forall₂ Yields gen ys ∧ Fitted Z ys L L' := by
  intro gen
  induction gen with
  | nil => intro _ L L' st st' rng rng' _ h; cases h; exact ⟨[], .nil, .nil _⟩
  | cons s gen ih =>
    intro hy L L' st st' rng rng' hS h
    unfold fitLoop at h
    rw [Res.bind_eq_ok] at h
    obtain ⟨⟨y, rng1⟩, h0, h⟩ := h
    cases y with
    | dict => cases h
    | array y =>
      dsimp only at h
      rw [Res.bind_eq_ok] at h
      obtain ⟨⟨L1, st1, rng2⟩, h1, h2⟩ := h
      unfold fitStep at h1
      dsimp only at h1
      rw [Res.bind_eq_ok] at h1
      obtain ⟨⟨out, st2, rng3⟩, h3, h4⟩ := h1
      cases h4
      obtain ⟨hz, hS'⟩ := (hy s (by simp) y ⟨_, _, h0⟩).sound _ _ _ _ _ hS h3
      obtain ⟨ys, g1, g2⟩ := ih (fun s h => hy s (by simp [h])) hS' h2
      exact ⟨y :: ys, .cons ⟨_, _, h0⟩ g1, .cons y ys L L' out hz g2⟩

theorem fitLoop_gen_complete {ys : List (Labels n)} {L L' : Labels n} (hf : Fitted Z ys L L') :
    (∀ y ∈ ys, ExactStep adj attr comp S Z y) → ∀ {gen : Gen n}, List.Forall₂ CanYield gen ys →
    ∀ {st : σ}, S st → ∃ st', S st' ∧ ∀ r', ∃ r0,
      fitLoop adj attr comp gen L st r0 = .ok (L', st', r') := by
  induction hf with
  | nil L =>
    intro _ gen hg st hS
    cases hg
    exact ⟨st, hS, fun r' => ⟨r', rfl⟩⟩
  | cons y ys L L' out hz _ ih =>
    intro hy gen hg st hS
    cases hg with
    | @cons s _ gen _ hs hg =>
      obtain ⟨st1, hS1, h1⟩ := (hy y (by simp)).complete st out hS hz
      obtain ⟨st', hS', h2⟩ := ih (fun y h => hy y (by simp [h])) hg hS1
      refine ⟨st', hS', fun r' => ?_⟩
      obtain ⟨r1, h2⟩ := h2 r'
      obtain ⟨r0, h1⟩ := h1 r1
      obtain ⟨r2, h0⟩ := hs r0
      refine ⟨r2, ?_⟩
      unfold fitLoop
      rw [h0, Res.bind_ok]
      dsimp only
      have : fitStep adj attr comp y L st r0 = .ok (scatter (shown y) out L, st1, r1) := by
        unfold fitStep
        dsimp only
        rw [show (List.finRange n).filter (fun i => decide (y i ≠ -1)) = shown y from rfl, h1]
        rfl
      rw [this, Res.bind_ok]
      exact h2

end Fit

/-- What `fit` makes of the map without a given start, in terms of the components. -/
theorem fitWith_none_exact {σ ρ : Type} {n : Nat} {o : MstOrder} {adj : Adj n} {attr : Fin n → ρ}
    {comp : CompFn σ n ρ} {S : σ → Prop}
    {Z : (idx : List (Fin n)) → Labels idx.length → Labels idx.length → Prop}
    {p : Int} (hn : 0 < n) (hp : p ≤ n) (hp1 : p ≠ 1) (hc : (nComponents adj : Int) ≤ p)
    (hstep : ∀ init, CutFrom adj (forestOf o adj) p init → ∀ c, c < nComponents adj →
      ExactStep adj attr comp S Z (compArray adj init c))
    {st : σ} (hst : S st) (L : Labels n) :
    (∃ rng st' rng', fitWith o adj attr comp p none st rng = .ok (L, st', rng')) ↔
      ∃ init, CutFrom adj (forestOf o adj) p init ∧ ∀ c, c < nComponents adj →
        Z (shown (compArray adj init c)) (fun i => init ((shown (compArray adj init c)).get i))
          (fun i => L ((shown (compArray adj init c)).get i)) := by
  have hsteps : ∀ init, CutFrom adj (forestOf o adj) p init →
      ∀ y ∈ separateComponents adj init, ExactStep adj attr comp S Z y := by
    intro init hi y hy
    rw [separateComponents_eq] at hy
    obtain ⟨c, hc, rfl⟩ := List.mem_map.1 hy
    exact hstep init hi c (by simpa using hc)
  constructor
  · rintro ⟨rng, st', rng', h⟩
    unfold fitWith at h
    dsimp only at h
    rw [Res.bind_eq_ok] at h
    obtain ⟨⟨gen, r1⟩, h1, h2⟩ := h
    obtain ⟨gen', r1', g1, g2, -⟩ := generateInitialSol_spec o adj p rng hn hp hp1 hc
    rw [g1] at h1
    cases h1
    have hex : ∀ s ∈ gen, ∀ y, Yields s y → ExactStep adj attr comp S Z y := by
      intro s hs y hy
      obtain ⟨c, hc', rfl⟩ := List.mem_iff_getElem.1 hs
      choose f hf using fun i : Fin gen.length => g2 (gen.get i) (List.get_mem _ _) rng
      let ys := (List.finRange gen.length).map fun i => if i.val = c then y else f i
      have hys : List.Forall₂ Yields gen ys := by
        rw [List.forall₂_iff_get]
        refine ⟨by simp [ys], ?_⟩
        intro i hi1 hi2
        simp only [ys, List.get_eq_getElem, List.getElem_map, List.getElem_finRange]
        split_ifs with hic
        · simp only [Fin.val_cast] at hic
          subst hic; exact hy
        · obtain ⟨r2, h⟩ := hf ⟨i, hi1⟩
          exact ⟨rng, r2, h⟩
      obtain ⟨K, hK, hcard, e1⟩ := generateInitialSol_sound hn hp hp1 hc g1 hys
      have hylen : ys.length = gen.length := by simp [ys]
      have hyc : ys[c]'(by rw [hylen]; exact hc') = y := by simp [ys]
      refine hsteps _ (cutFrom_iff.2 ⟨K, hK, hcard, rfl⟩) y ?_
      rw [← e1, ← hyc]
      exact List.getElem_mem _
    obtain ⟨ys, hys, hf⟩ := fitLoop_gen_sound hex hst h2
    obtain ⟨K, hK, hcard, e1⟩ := generateInitialSol_sound hn hp hp1 hc g1 hys
    subst e1
    exact ⟨_, cutFrom_iff.2 ⟨K, hK, hcard, rfl⟩, (fit_result hf).2⟩
  · rintro ⟨init, hi, hz⟩
    have hi' := hi
    obtain ⟨K, hK, hcard, rfl⟩ := cutFrom_iff.1 hi
    obtain ⟨gen, h1, h2⟩ := generateInitialSol_complete hn hp hp1 hc hK hcard
    have hf : Fitted Z (separateComponents adj (cutLabels o adj K)) (fun _ => -1) L := by
      refine fitted_of (fun v hv => ?_) fun y hy => ?_
      · have := hv (compArray adj (cutLabels o adj K) (compLabels adj v)) (by
          rw [separateComponents_eq]
          exact List.mem_map.2 ⟨_, by simpa using compLabels_lt adj v, rfl⟩)
        have h0 := (hi'.1.numbers (cutLabels o adj K v)).1 ⟨v, rfl⟩
        exact absurd this (compArray_ne.2 ⟨rfl, by omega⟩)
      · rw [separateComponents_eq] at hy
        obtain ⟨c, hc, rfl⟩ := List.mem_map.1 hy
        rw [compArray_get]
        exact hz c (by simpa using hc)
    obtain ⟨st', _, h⟩ := fitLoop_gen_complete hf (hsteps _ hi') h2 hst
    obtain ⟨r0, h⟩ := h fun _ => 0
    obtain ⟨r1, h1⟩ := h1 r0
    refine ⟨r1, st', fun _ => 0, ?_⟩
    unfold fitWith
    dsimp only
    rw [h1, Res.bind_ok]
    exact h

end Region
