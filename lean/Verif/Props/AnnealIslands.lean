import Mathlib.Data.Fin.VecNotation
import Verif.Lemmas.AnnealIslands
import Verif.Props.Anneal
/-
Property theorem C128 for maps with several islands.
-/
namespace Region.Props

open Region Spec

section
variable {n : Nat} {ρ : Type} {expf : ℚ → ℚ} {adj : Adj n} {attr : Fin n → ρ}

/-- The dissimilarities within the regions of the island of `u`. -/
noncomputable abbrev islandValue (metric : ρ → ρ → ℚ) (attr : Fin n → ρ) (adj : Adj n) (u : Fin n)
    (L : Island adj u → Int) : ℚ :=
  dissimilarity (fun a b : Island adj u => metric (attr a) (attr b)) L / 2

/-- C128 on any map: from a feasible start the results of simulated annealing are exactly the results of the
procedure with all choices left open, where at every temperature the islands are treated independently and the
worsening moves of all islands are counted together. -/
theorem c128_islands (o : MstOrder) {metric : ρ → ρ → ℚ} (hsym : ∀ x y, metric x y = metric y x)
    (h0 : ∀ x, metric x x = 0) (hs : Spec.Symmetric adj) {us : List (Fin n)} (hus : OneOfEach adj us)
    {p term : Nat} {init : Labels n} (hi : Feasible adj init p) (hfree : ∀ v, init v ≠ -1) {P : SaParams}
    (hterm : 0 < term) (hP : P.saMovesTerm = .int term) {self : SaObj} {seen : List (Labels n)}
    (hself : self.visited = seen.map arrayList) {cooling : ℚ} (hc0 : 0 < cooling) (hc1 : cooling < 1)
    (out : Option (Labels n)) :
    (∃ f1 f2 f3 rng self' st' rng', saFit o expf (pairwise metric) f1 f2 f3 P self adj attr p (some init)
        cooling rng = .ok (out, self', st', rng')) ↔
      ∃ L, out = some L ∧ Annealed P.nonmovingSteps P.repsBeforeTermination cooling
        (fun t => AtTemperature P.maxIt term
          (HotIslands adj (islandValue metric attr adj) (MayTake expf t) (MayLeave expf t) us) 0)
        P.initTemperature 0 seen ⟨init, 0, self.moveMade⟩ L := by
  have hst : newSaStrategy (n := n) (q := 0) P.initTemperature P.saMovesTerm =
      .ok (.sa P.initTemperature term 0 0 false false) := by
    rw [hP]
    unfold newSaStrategy
    dsimp only
    rw [if_neg (by omega)]
    rfl
  have hbet : SaBetween P.initTemperature term ⟨init, 0, self.moveMade⟩
      ((Strat.sa P.initTemperature term 0 0 false false).saSetMoveMade self.moveMade : Strat n 0) := ⟨0, by
    have : ¬ term ≤ 0 := by omega
    simp [Strat.saSetMoveMade, this]⟩
  have hstart : Startable adj p init := ⟨hi.1, hi.2, hfree⟩
  constructor
  · rintro ⟨f1, f2, f3, rng, self', st', rng', hrun⟩
    unfold saFit at hrun
    rw [if_neg (not_not.2 ⟨hc0, hc1⟩), hst, Res.bind_ok, Res.bind_eq_ok] at hrun
    obtain ⟨⟨cur, vis, st1, rng1⟩, h1, h2⟩ := hrun
    cases h2
    rw [hself] at h1
    exact saOuter_sound (K := Startable adj p)
      (run := fun t => HotIslands adj (islandValue metric attr adj) (MayTake expf t) (MayLeave expf t) us) hterm
      (fun hk hst hrun => islands_run_sound o (pairwise_exact hsym h0) (pairwise_total metric) hs
        (fun init hm u L => pairwise_island hsym attr init hm u L) hus hk hst hrun)
      f1 _ 0 ⟨init, 0, self.moveMade⟩ seen _ rng hstart hbet h1
  · rintro ⟨L, rfl, hL⟩
    obtain ⟨F1, F2, key⟩ := saOuter_complete (K := Startable adj p)
      (run := fun t => HotIslands adj (islandValue metric attr adj) (MayTake expf t) (MayLeave expf t) us)
      hterm hL
    obtain ⟨vis, st', h1⟩ := key
      (fun cur st rng => azpFit o expf (pairwise metric) (n + n ^ n + 1) adj attr p cur st rng)
      (fun hk hst hR => islands_run_complete o (pairwise_exact hsym h0) (pairwise_total metric) hs
        (fun init hm u L => pairwise_island hsym attr init hm u L) hus (Nat.lt_succ_self _) hk hst hR)
      F1 le_rfl F2 le_rfl _ hstart hbet
    obtain ⟨r0, h2⟩ := h1 fun _ => 0
    refine ⟨F1, F2, n + n ^ n + 1, r0, ⟨vis, st'.saMoveMade⟩, st', fun _ => 0, ?_⟩
    unfold saFit
    rw [if_neg (not_not.2 ⟨hc0, hc1⟩), hst, Res.bind_ok, hself, h2]
    rfl

/-- The same with the spanning forest the library computes. -/
theorem islands_scratch_exact (o : MstOrder) {metric : ρ → ρ → ℚ} (hsym : ∀ x y, metric x y = metric y x)
    (h0 : ∀ x, metric x x = 0) (hs : Spec.Symmetric adj) {us : List (Fin n)} (hus : OneOfEach adj us)
    {p term : Nat} (hp2 : 2 ≤ p) (hp : p ≤ n) (hlen : us.length ≤ p) {P : SaParams} (hterm : 0 < term)
    (hP : P.saMovesTerm = .int term) {self : SaObj} {seen : List (Labels n)}
    (hself : self.visited = seen.map arrayList) {cooling : ℚ} (hc0 : 0 < cooling) (hc1 : cooling < 1)
    (out : Option (Labels n)) :
    (∃ f1 f2 f3 rng self' st' rng', saFit o expf (pairwise metric) f1 f2 f3 P self adj attr p none cooling
        rng = .ok (out, self', st', rng')) ↔
      (P.nonmovingSteps ≤ 0 ∧ out = none) ∨ 0 < P.nonmovingSteps ∧ ∃ L, out = some L ∧
        ∃ y, FromScratch P.maxIt term
            (HotIslands adj (islandValue metric attr adj) (MayTake expf P.initTemperature)
              (MayLeave expf P.initTemperature) us) (CutFrom adj (forestOf o adj) p) self.moveMade y ∧
          ThenAnnealed P.nonmovingSteps P.repsBeforeTermination cooling
            (fun t => AtTemperature P.maxIt term
              (HotIslands adj (islandValue metric attr adj) (MayTake expf t) (MayLeave expf t) us) 0)
            P.initTemperature seen y L := by
  have hc : nComponents adj ≤ p := by
    have := (oneOfEach_perm hus).length_eq
    rw [List.length_map, List.length_range] at this
    omega
  have hst : newSaStrategy (n := n) (q := 0) P.initTemperature P.saMovesTerm =
      .ok (.sa P.initTemperature term 0 0 false false) := by
    rw [hP]
    unfold newSaStrategy
    dsimp only
    rw [if_neg (by omega)]
    rfl
  have hbet : SaBetween P.initTemperature term ⟨fun _ : Fin n => 0, 0, self.moveMade⟩
      ((Strat.sa P.initTemperature term 0 0 false false).saSetMoveMade self.moveMade : Strat n 0) := ⟨0, by
    have : ¬ term ≤ 0 := by omega
    simp [Strat.saSetMoveMade, this]⟩
  constructor
  · rintro ⟨f1, f2, f3, rng, self', st', rng', hrun⟩
    unfold saFit at hrun
    rw [if_neg (not_not.2 ⟨hc0, hc1⟩), hst, Res.bind_ok, Res.bind_eq_ok] at hrun
    obtain ⟨⟨cur, vis, st1, rng1⟩, h1, h2⟩ := hrun
    cases h2
    rw [hself] at h1
    exact saOuter_none_sound (K := Startable adj p) (S := CutFrom adj (forestOf o adj) p)
      (run := fun t => HotIslands adj (islandValue metric attr adj) (MayTake expf t) (MayLeave expf t) us) hterm
      (fun hk hst hrun => islands_run_sound o (pairwise_exact hsym h0) (pairwise_total metric) hs
        (fun init hm u L => pairwise_island hsym attr init hm u L) hus hk hst hrun)
      (fun h => azpFit_none_start hp2 hp hc h) hbet h1
  · rintro (⟨hsteps, rfl⟩ | ⟨hsteps, L, rfl, y, hfirst, hthen⟩)
    · refine ⟨0, 0, 0, fun _ => 0, ⟨seen.map arrayList, self.moveMade⟩,
        (Strat.sa P.initTemperature term 0 0 false false).saSetMoveMade self.moveMade, fun _ => 0, ?_⟩
      unfold saFit
      rw [if_neg (not_not.2 ⟨hc0, hc1⟩), hst, Res.bind_ok]
      unfold saOuter
      rw [if_neg (by simpa using hsteps), Res.bind_ok, hself]
      rfl
    · obtain ⟨F1, F2, key⟩ := saOuter_none_complete (K := Startable adj p)
        (S := CutFrom adj (forestOf o adj) p)
        (run := fun t => HotIslands adj (islandValue metric attr adj) (MayTake expf t) (MayLeave expf t) us)
        hterm (x0 := ⟨fun _ : Fin n => 0, 0, self.moveMade⟩) (fun _ => cutFrom_startable) hsteps hfirst hthen
      obtain ⟨vis, st', h1⟩ := key
        (fun cur st rng => azpFit o expf (pairwise metric) (n + n ^ n + 1) adj attr p cur st rng)
        (fun hk hst hR => islands_run_complete o (pairwise_exact hsym h0) (pairwise_total metric) hs
          (fun init hm u L => pairwise_island hsym attr init hm u L) hus (Nat.lt_succ_self _) hk hst hR)
        (fun init hi st r' out h => azpFit_start_none hp2 hp hc hi h)
        F1 le_rfl F2 le_rfl _ hbet
      obtain ⟨r0, h2⟩ := h1 fun _ => 0
      refine ⟨F1, F2, n + n ^ n + 1, r0, ⟨vis, st'.saMoveMade⟩, st', fun _ => 0, ?_⟩
      unfold saFit
      rw [if_neg (not_not.2 ⟨hc0, hc1⟩), hst, Res.bind_ok, hself, h2]
      rfl

/-- C128 on any map without initial labels: for two or more regions, and no fewer than there are islands, the
results are exactly those of the procedure with all choices left open, started from any clustering one gets by
cutting links of a certain spanning forest. -/
theorem c128_islands_scratch (o : MstOrder) {metric : ρ → ρ → ℚ} (hsym : ∀ x y, metric x y = metric y x)
    (h0 : ∀ x, metric x x = 0) (hs : Spec.Symmetric adj) {us : List (Fin n)} (hus : OneOfEach adj us) :
    ∃ F, SpanningLinks adj F ∧ ∀ {p term : Nat}, 2 ≤ p → p ≤ n → us.length ≤ p → ∀ {P : SaParams}, 0 < term →
      P.saMovesTerm = .int term → ∀ {self : SaObj} {seen : List (Labels n)},
      self.visited = seen.map arrayList → ∀ {cooling : ℚ}, 0 < cooling → cooling < 1 →
      ∀ out : Option (Labels n),
      (∃ f1 f2 f3 rng self' st' rng', saFit o expf (pairwise metric) f1 f2 f3 P self adj attr p none cooling
          rng = .ok (out, self', st', rng')) ↔
        (P.nonmovingSteps ≤ 0 ∧ out = none) ∨ 0 < P.nonmovingSteps ∧ ∃ L, out = some L ∧
          ∃ y, FromScratch P.maxIt term
              (HotIslands adj (islandValue metric attr adj) (MayTake expf P.initTemperature)
                (MayLeave expf P.initTemperature) us) (CutFrom adj F p) self.moveMade y ∧
            ThenAnnealed P.nonmovingSteps P.repsBeforeTermination cooling
              (fun t => AtTemperature P.maxIt term
                (HotIslands adj (islandValue metric attr adj) (MayTake expf t) (MayLeave expf t) us) 0)
              P.initTemperature seen y L :=
  ⟨forestOf o adj, forestOf_spans, fun hp2 hp hlen _ hterm hP _ _ hself _ hc0 hc1 out =>
    islands_scratch_exact o hsym h0 hs hus hp2 hp hlen hterm hP hself hc0 hc1 out⟩

end

/-! ### Example -/

/-- Two islands of two and three areas. -/
def isles5 : Adj 5 := fun i j => (i.val / 2 == j.val / 2 || (2 ≤ i.val && 2 ≤ j.val)) && i != j

theorem isles5_each : OneOfEach isles5 [0, 2] := by
    refine ⟨fun v => ?_, ?_⟩
    · have : compLabels isles5 0 = compLabels isles5 v ∨ compLabels isles5 2 = compLabels isles5 v := by
        revert v; decide +kernel
      rcases this with h | h
      · exact ⟨0, by simp, (compLabels_eq_iff _ _ _).1 h⟩
      · exact ⟨2, by simp, (compLabels_eq_iff _ _ _).1 h⟩
    · simp only [List.pairwise_cons, List.mem_singleton, forall_eq, List.not_mem_nil, false_imp_iff,
        implies_true, List.Pairwise.nil, and_true]
      rw [← compLabels_eq_iff]
      decide +kernel

/-- The hypotheses of `c128_islands` are met by two islands with three regions. -/
example (L : Option (Labels 5)) := c128_islands (expf := fun x => 1 / (1 - x)) .rowMajor
  (manhattan_comm (m := 1)) manhattan_self (adj := isles5) (by unfold Spec.Symmetric; decide +kernel)
  isles5_each
  (p := 3) (term := 10) (init := ![0, 0, 1, 1, 2]) (attr := fun i => (![(i : ℚ)] : Row 1))
  (((c04_assert_feasible_ok _ _ (some 3)).1 (by decide +kernel)).imp id fun h => by exact_mod_cast h 3 rfl) (by decide +kernel)
  (P := ⟨1, some 2, .int 10, 3, 5⟩) (by norm_num) rfl (self := .fresh) (seen := []) rfl
  (cooling := 17 / 20) (by norm_num) (by norm_num) L

/-- The hypotheses of `c128_islands_scratch` too. -/
example := (c128_islands_scratch (expf := fun x => 1 / (1 - x)) (attr := fun i => (![(i : ℚ)] : Row 1)) .rowMajor
  (manhattan_comm (m := 1)) manhattan_self (adj := isles5) (by unfold Spec.Symmetric; decide +kernel)
  isles5_each).imp fun _ ⟨_, h⟩ => h (p := 3) (term := 10) (by norm_num) (by norm_num) (by decide)
  (P := ⟨1, some 2, .int 10, 3, 5⟩) (by norm_num) rfl (self := .fresh) (seen := []) rfl
  (cooling := 17 / 20) (by norm_num) (by norm_num)

end Region.Props
