import Verif.Lemmas.StartIslands
import Verif.Lemmas.Twin
import Verif.Props.Zoning
/-
Property theorems C128: all possible results of simulated annealing.
-/
namespace Region.Props

open Region Spec Res

section
variable {n : Nat} {ρ : Type} {expf : ℚ → ℚ} {obj : Objective ρ} {adj : Adj n} {attr : Fin n → ρ}

/-- What the annealing of C128 does at one temperature, with parameters `P` and the limit `term` of
worsening moves. -/
def Stay (expf : ℚ → ℚ) (value : Labels n → ℚ) (adj : Adj n) (limit : Option Int) (term : Nat) (t : ℚ) :
    Annealing (Fin n) → Annealing (Fin n) → Prop :=
  AtTemperature limit term (HotRounds adj value (MayTake expf t) (MayLeave expf t)) 0

/-- C128, soundness: on a connected map and from a feasible start, what simulated annealing returns is a
result of the procedure with all choices left open, for any number of iterations observed. -/
theorem c128_sound (o : MstOrder) (he : obj.Exact) (ht : obj.Total) (hs : Symmetric adj)
    (hcon : Connected adj) {p term : Nat} {init : Labels n} (hi : Feasible adj init p)
    (hfree : ∀ v, init v ≠ -1) {P : SaParams} (hterm : 0 < term) (hP : P.saMovesTerm = .int term)
    {self : SaObj} {seen : List (Labels n)} (hself : self.visited = seen.map arrayList) {cooling : ℚ}
    {f1 f2 f3 : Nat} {rng : Rng} {out : Option (Labels n)} {self' : SaObj} {st' : Strat n 0} {rng' : Rng}
    (hrun : saFit o expf obj f1 f2 f3 P self adj attr p (some init) cooling rng =
      .ok (out, self', st', rng')) :
    ∃ L, out = some L ∧ Annealed P.nonmovingSteps P.repsBeforeTermination cooling
      (Stay expf (fun L => obj.call L attr) adj P.maxIt term) P.initTemperature 0 seen
      ⟨init, 0, self.moveMade⟩ L := by
  unfold saFit at hrun
  split_ifs at hrun with hc
  have hst : newSaStrategy (n := n) (q := 0) P.initTemperature P.saMovesTerm =
      .ok (.sa P.initTemperature term 0 0 false false) := by
    rw [hP]
    unfold newSaStrategy
    dsimp only
    rw [if_neg (by omega)]
    rfl
  rw [hst, Res.bind_ok, Res.bind_eq_ok] at hrun
  obtain ⟨⟨cur, vis, st1, rng1⟩, h1, h2⟩ := hrun
  cases h2
  rw [hself] at h1
  exact saOuter_sound (K := Startable adj p)
    (run := fun t => HotRounds adj (fun L => obj.call L attr) (MayTake expf t) (MayLeave expf t)) hterm
    (fun hk hst hrun => by
      obtain ⟨y, h1, h2, h3⟩ := azpFit_run_sound o he ht hs hcon hk hst hrun
      exact ⟨y, h1, h2, h3, hk.next h1⟩) f1 P.initTemperature 0 ⟨init, 0, self.moveMade⟩ seen _ rng
    ⟨hi.1, hi.2, hfree⟩ ⟨0, by
      have : ¬ term ≤ 0 := by omega
      simp [Strat.saSetMoveMade, this]⟩ h1

/-- C128, completeness: every result of the procedure with all choices left open is returned for some random
numbers, whatever is left of the tape, as soon as enough iterations are observed. -/
theorem c128_complete (o : MstOrder) (he : obj.Exact) (ht : obj.Total) (hs : Symmetric adj)
    (hcon : Connected adj) {p term : Nat} {init : Labels n} (hi : Feasible adj init p)
    (hfree : ∀ v, init v ≠ -1) {P : SaParams} (hterm : 0 < term) (hP : P.saMovesTerm = .int term)
    {self : SaObj} {seen : List (Labels n)} (hself : self.visited = seen.map arrayList) {cooling : ℚ}
    (hc0 : 0 < cooling) (hc1 : cooling < 1) {L : Labels n}
    (hL : Annealed P.nonmovingSteps P.repsBeforeTermination cooling
      (Stay expf (fun L => obj.call L attr) adj P.maxIt term) P.initTemperature 0 seen
      ⟨init, 0, self.moveMade⟩ L) :
    ∃ F1 F2, ∀ f1, F1 ≤ f1 → ∀ f2, F2 ≤ f2 → ∀ f3, n + n ^ n < f3 → ∀ rest,
      ∃ rng self' st', saFit o expf obj f1 f2 f3 P self adj attr p (some init) cooling rng =
        .ok (some L, self', st', rest) := by
  have hst : newSaStrategy (n := n) (q := 0) P.initTemperature P.saMovesTerm =
      .ok (.sa P.initTemperature term 0 0 false false) := by
    rw [hP]
    unfold newSaStrategy
    dsimp only
    rw [if_neg (by omega)]
    rfl
  obtain ⟨F1, F2, key⟩ := saOuter_complete (K := Startable adj p)
    (run := fun t => HotRounds adj (fun L => obj.call L attr) (MayTake expf t) (MayLeave expf t)) hterm hL
  refine ⟨F1, F2, fun f1 hf1 f2 hf2 f3 hf3 rest => ?_⟩
  have hrun := azpFit_run (expf := expf) (attr := attr) o he ht hs hcon p hf3
  obtain ⟨vis, st', h1⟩ := key (fun cur st rng => azpFit o expf obj f3 adj attr p cur st rng)
    (fun hk hst hR => by
      obtain ⟨st', h1, h2⟩ := hrun.complete hk hst hR
      exact ⟨st', h1, hk.next hR, h2⟩) f1 hf1 f2 hf2
    ((Strat.sa P.initTemperature term 0 0 false false).saSetMoveMade self.moveMade)
    ⟨hi.1, hi.2, hfree⟩ ⟨0, by
      have : ¬ term ≤ 0 := by omega
      simp [Strat.saSetMoveMade, this]⟩
  obtain ⟨r0, h2⟩ := h1 rest
  refine ⟨r0, ⟨vis, st'.saMoveMade⟩, st', ?_⟩
  unfold saFit
  rw [if_neg (not_not.2 ⟨hc0, hc1⟩), hst, Res.bind_ok, hself, h2]
  rfl

/-- C128: the results of simulated annealing on a connected map from a feasible start are exactly the results
of the procedure with all choices left open. -/
theorem c128_fit (o : MstOrder) (he : obj.Exact) (ht : obj.Total) (hs : Symmetric adj)
    (hcon : Connected adj) {p term : Nat} {init : Labels n} (hi : Feasible adj init p)
    (hfree : ∀ v, init v ≠ -1) {P : SaParams} (hterm : 0 < term) (hP : P.saMovesTerm = .int term)
    {self : SaObj} {seen : List (Labels n)} (hself : self.visited = seen.map arrayList) {cooling : ℚ}
    (hc0 : 0 < cooling) (hc1 : cooling < 1) (out : Option (Labels n)) :
    (∃ f1 f2 f3 rng self' st' rng', saFit o expf obj f1 f2 f3 P self adj attr p (some init) cooling rng =
        .ok (out, self', st', rng')) ↔
      ∃ L, out = some L ∧ Annealed P.nonmovingSteps P.repsBeforeTermination cooling
        (Stay expf (fun L => obj.call L attr) adj P.maxIt term) P.initTemperature 0 seen
        ⟨init, 0, self.moveMade⟩ L := by
  constructor
  · rintro ⟨f1, f2, f3, rng, self', st', rng', h⟩
    exact c128_sound o he ht hs hcon hi hfree hterm hP hself h
  · rintro ⟨L, rfl, hL⟩
    obtain ⟨F1, F2, h⟩ := c128_complete o he ht hs hcon hi hfree hterm hP hself hc0 hc1 hL
    obtain ⟨rng, self', st', h⟩ := h F1 le_rfl F2 le_rfl (n + n ^ n + 1) (by omega) fun _ => 0
    exact ⟨F1, F2, _, rng, self', st', _, h⟩

/-- `c128_scratch` with the spanning tree the program uses. -/
theorem scratch_exact (o : MstOrder) (he : obj.Exact) (ht : obj.Total) (hs : Symmetric adj)
    (hcon : Connected adj) {p term : Nat} (hp2 : 2 ≤ p) (hp : p ≤ n) {P : SaParams} (hterm : 0 < term)
    (hP : P.saMovesTerm = .int term) {self : SaObj} {seen : List (Labels n)}
    (hself : self.visited = seen.map arrayList) {cooling : ℚ} (hc0 : 0 < cooling) (hc1 : cooling < 1)
    (out : Option (Labels n)) :
    (∃ f1 f2 f3 rng self' st' rng', saFit o expf obj f1 f2 f3 P self adj attr p none cooling rng =
        .ok (out, self', st', rng')) ↔
      (P.nonmovingSteps ≤ 0 ∧ out = none) ∨ 0 < P.nonmovingSteps ∧ ∃ L, out = some L ∧
        ∃ y, FromScratch P.maxIt term
            (HotRounds adj (fun L => obj.call L attr) (MayTake expf P.initTemperature)
              (MayLeave expf P.initTemperature)) (CutFrom adj (forestOf o adj) p) self.moveMade y ∧
          ThenAnnealed P.nonmovingSteps P.repsBeforeTermination cooling
            (Stay expf (fun L => obj.call L attr) adj P.maxIt term) P.initTemperature seen y L := by
  have hc : nComponents adj ≤ p := by
    rw [(nComponents_eq_one_iff _).2 hcon]
    omega
  have hst : newSaStrategy (n := n) (q := 0) P.initTemperature P.saMovesTerm =
      .ok (.sa P.initTemperature term 0 0 false false) := by
    rw [hP]
    unfold newSaStrategy
    dsimp only
    rw [if_neg (by omega)]
    rfl
  have hbet : SaBetween P.initTemperature term ⟨fun _ : Fin n => 0, 0, self.moveMade⟩
      ((Strat.sa P.initTemperature term 0 0 false false).saSetMoveMade self.moveMade : Strat n 0) := ⟨0, by
    have : ¬ term ≤ 0 := by omega
    simp [Strat.saSetMoveMade, this]⟩
  constructor
  · rintro ⟨f1, f2, f3, rng, self', st', rng', hrun⟩
    unfold saFit at hrun
    split_ifs at hrun with hcool
    rw [hst, Res.bind_ok, Res.bind_eq_ok] at hrun
    obtain ⟨⟨cur, vis, st1, rng1⟩, h1, h2⟩ := hrun
    cases h2
    rw [hself] at h1
    exact saOuter_none_sound (K := Startable adj p) (S := CutFrom adj (forestOf o adj) p)
      (run := fun t => HotRounds adj (fun L => obj.call L attr) (MayTake expf t) (MayLeave expf t)) hterm
      (fun hk hst hrun => by
        obtain ⟨y, h1, h2, h3⟩ := azpFit_run_sound o he ht hs hcon hk hst hrun
        exact ⟨y, h1, h2, h3, hk.next h1⟩)
      (fun h => azpFit_none_start hp2 hp hc h) hbet h1
  · rintro (⟨hsteps, rfl⟩ | ⟨hsteps, L, rfl, y, hfirst, hthen⟩)
    · refine ⟨0, 0, 0, fun _ => 0, ⟨seen.map arrayList, self.moveMade⟩,
        (Strat.sa P.initTemperature term 0 0 false false).saSetMoveMade self.moveMade, fun _ => 0, ?_⟩
      unfold saFit
      rw [if_neg (not_not.2 ⟨hc0, hc1⟩), hst, Res.bind_ok]
      unfold saOuter
      rw [if_neg (by simpa using hsteps), Res.bind_ok, hself]
      rfl
    · obtain ⟨F1, F2, key⟩ := saOuter_none_complete (K := Startable adj p)
        (S := CutFrom adj (forestOf o adj) p)
        (run := fun t => HotRounds adj (fun L => obj.call L attr) (MayTake expf t) (MayLeave expf t)) hterm
        (x0 := ⟨fun _ : Fin n => 0, 0, self.moveMade⟩) (fun _ => cutFrom_startable) hsteps hfirst hthen
      have hrun := azpFit_run (expf := expf) (attr := attr) o he ht hs hcon p (Nat.lt_succ_self (n + n ^ n))
      obtain ⟨vis, st', h1⟩ := key (fun cur st rng => azpFit o expf obj (n + n ^ n + 1) adj attr p cur st rng)
        (fun hk hst hR => by
          obtain ⟨st', h1, h2⟩ := hrun.complete hk hst hR
          exact ⟨st', h1, hk.next hR, h2⟩)
        (fun init hi st r' out h => azpFit_start_none hp2 hp hc hi h)
        F1 le_rfl F2 le_rfl _ hbet
      obtain ⟨r0, h2⟩ := h1 fun _ => 0
      refine ⟨F1, F2, n + n ^ n + 1, r0, ⟨vis, st'.saMoveMade⟩, st', fun _ => 0, ?_⟩
      unfold saFit
      rw [if_neg (not_not.2 ⟨hc0, hc1⟩), hst, Res.bind_ok, hself, h2]
      rfl

/-- C128 without initial labels: on a connected map and for two or more regions the results are exactly those
of the procedure with all choices left open, started from any clustering one gets by cutting links of a certain
spanning tree.  Without any `nonmoving_steps` nothing is done. -/
theorem c128_scratch (o : MstOrder) (he : obj.Exact) (ht : obj.Total) (hs : Symmetric adj)
    (hcon : Connected adj) :
    ∃ F, SpanningLinks adj F ∧ ∀ {p term : Nat}, 2 ≤ p → p ≤ n → ∀ {P : SaParams}, 0 < term →
      P.saMovesTerm = .int term → ∀ {self : SaObj} {seen : List (Labels n)},
      self.visited = seen.map arrayList → ∀ {cooling : ℚ}, 0 < cooling → cooling < 1 →
      ∀ out : Option (Labels n),
      (∃ f1 f2 f3 rng self' st' rng', saFit o expf obj f1 f2 f3 P self adj attr p none cooling rng =
          .ok (out, self', st', rng')) ↔
        (P.nonmovingSteps ≤ 0 ∧ out = none) ∨ 0 < P.nonmovingSteps ∧ ∃ L, out = some L ∧
          ∃ y, FromScratch P.maxIt term
              (HotRounds adj (fun L => obj.call L attr) (MayTake expf P.initTemperature)
                (MayLeave expf P.initTemperature)) (CutFrom adj F p) self.moveMade y ∧
            ThenAnnealed P.nonmovingSteps P.repsBeforeTermination cooling
              (Stay expf (fun L => obj.call L attr) adj P.maxIt term) P.initTemperature seen y L :=
  ⟨forestOf o adj, forestOf_spans, fun hp2 hp _ hterm hP _ _ hself _ hc0 hc1 out =>
    scratch_exact o he ht hs hcon hp2 hp hterm hP hself hc0 hc1 out⟩

/-- Moving an area keeps a feasible clustering feasible. -/
private theorem moved_startable {p : Nat} {L : Labels n} {a : Fin n} {r : Int} (h : Startable adj p L)
    (hm : Admissible adj L a r) : Startable adj p (moved L a r) := by
  have him := moved_image hm
  refine ⟨moved_contiguous h.contiguous hm, ?_, fun v hv => ?_⟩
  · rw [← h.number]
    unfold numRegions
    congr 1
    ext z
    simp only [Finset.mem_image, Finset.mem_univ, true_and]
    exact him z
  · obtain ⟨u, hu⟩ := (him (-1)).1 ⟨v, hv⟩
    exact h.named u hu

/-- C128, cold annealing: when no worsening move of a feasible clustering has a probability above `lo` at the
temperatures used, and no random number is below `lo`, the result is feasible and not worse than the start. -/
theorem c128_cold (o : MstOrder) (he : obj.Exact) (ht : obj.Total) (hs : Symmetric adj)
    (hcon : Connected adj) {p term : Nat} {init : Labels n} (hi : Feasible adj init p)
    (hfree : ∀ v, init v ≠ -1) {P : SaParams} (hterm : 0 < term) (hP : P.saMovesTerm = .int term)
    {self : SaObj} {seen : List (Labels n)} (hself : self.visited = seen.map arrayList) {cooling lo : ℚ}
    (hT : 0 < P.initTemperature)
    (hcold : ∀ L a r t, Feasible adj L p → Admissible adj L a r →
      obj.call L attr < obj.call (moved L a r) attr → 0 < t → t ≤ P.initTemperature →
      expf (-(obj.call (moved L a r) attr - obj.call L attr) / t) ≤ lo)
    {f1 f2 f3 : Nat} {rng : Rng} (hr : rng.AtLeast lo) {out : Option (Labels n)} {self' : SaObj}
    {st' : Strat n 0} {rng' : Rng}
    (hrun : saFit o expf obj f1 f2 f3 P self adj attr p (some init) cooling rng =
      .ok (out, self', st', rng')) :
    ∃ L, out = some L ∧ Feasible adj L p ∧ obj.call L attr ≤ obj.call init attr := by
  rw [saFit_cutOff o expf obj f1 f2 f3 P self adj attr p (some init) cooling hr] at hrun
  obtain ⟨L, rfl, hL⟩ := c128_sound o he ht hs hcon hi hfree hterm hP hself hrun
  have hc : 0 < cooling ∧ cooling < 1 := by
    unfold saFit at hrun
    split_ifs at hrun with hc
    exact hc
  have key := annealed_keeps (T := P.initTemperature)
    (I := fun L => Startable adj p L ∧ obj.call L attr ≤ obj.call init attr) hc.1 hc.2
    (fun t x y h0 hle hx hy => atTemperature_keeps
      (I := fun L => Startable adj p L ∧ obj.call L attr ≤ obj.call init attr) (fun x y hx hxy => by
      obtain ⟨h1, h2⟩ := hotRounds_cold (I := Startable adj p) (fun L a r hL ha => moved_startable hL ha)
        (fun L a r hL ha hv htake => by
          have h3 := hcold L a r t ⟨hL.contiguous, hL.number⟩ ha hv h0 hle
          have h4 := htake.2
          unfold cutOff at h4
          rw [if_pos h3] at h4
          exact absurd h4 (lt_irrefl _)) hxy hx.1
      exact ⟨h1, h2.trans hx.2⟩) hy hx) hL hT le_rfl ⟨⟨hi.1, hi.2, hfree⟩, le_rfl⟩
  exact ⟨L, rfl, ⟨key.1.contiguous, key.1.number⟩, key.2⟩

end

/-! ### Examples -/

/-- The hypotheses of C128 are met by the four areas around the lake. -/
example (L : Option (Labels 4)) := c128_fit (expf := fun x => 1 / (1 - x)) .rowMajor
  (pairwise_exact (manhattan_comm (m := 1)) manhattan_self) (pairwise_total _) (adj := lake4)
  (by unfold Spec.Symmetric; decide +kernel) ((nComponents_eq_one_iff _).1 (by decide +kernel)) (p := 2)
  (term := 10) (init := ![0, 0, 1, 1]) (attr := fun i => (![(i : ℚ)] : Row 1)) ⟨lake4_start, by decide +kernel⟩
  (by decide +kernel) (P := ⟨1, some 2, .int 10, 3, 5⟩) (by norm_num) rfl (self := .fresh) (seen := []) rfl
  (cooling := 17 / 20) (by norm_num) (by norm_num) L

/-- The hypotheses of `c128_scratch` are met by the same map, where a result is a clustering reached from a cut
of a spanning tree. -/
example {f1 f2 f3 : Nat} {rng : Rng} {out : Option (Labels 4)} {self' : SaObj} {st' : Strat 4 0} {rng' : Rng}
    (hrun : saFit .rowMajor (fun x => 1 / (1 - x)) (pairwise manhattan) f1 f2 f3
      ⟨1, some 2, .int 10, 3, 5⟩ .fresh lake4 (fun i => (![(i : ℚ)] : Row 1)) 2 none (17 / 20) rng =
      .ok (out, self', st', rng')) :
    ∃ F, SpanningLinks lake4 F ∧ ∃ init, CutFrom lake4 F 2 init ∧ ∃ L, out = some L := by
  obtain ⟨F, hF, h⟩ := c128_scratch (expf := fun x => 1 / (1 - x)) .rowMajor
    (pairwise_exact (manhattan_comm (m := 1)) manhattan_self) (pairwise_total _) (adj := lake4)
    (by unfold Spec.Symmetric; decide +kernel) ((nComponents_eq_one_iff _).1 (by decide +kernel))
    (attr := fun i => (![(i : ℚ)] : Row 1))
  rcases (h (p := 2) (term := 10) (by norm_num) (by norm_num) (P := ⟨1, some 2, .int 10, 3, 5⟩) (by norm_num)
    rfl (self := .fresh) (seen := []) rfl (cooling := 17 / 20) (by norm_num) (by norm_num) out).1
    ⟨_, _, _, _, _, _, _, hrun⟩ with ⟨h1, -⟩ | ⟨-, L, h1, y, ⟨-, init, h2, -⟩, -⟩
  · norm_num at h1
  · exact ⟨F, hF, init, h2, L, h1⟩

/-- Whole numbers as dissimilarities make the values whole numbers. -/
private theorem whole_value {n : Nat} (L : Labels n) (f : Fin n → Fin n → Int) :
    ∃ z : Int, withinPairs L (fun i j => (f i j : ℚ)) = z :=
  ⟨∑ p ∈ Finset.univ.filter (fun p : Fin n × Fin n => p.1 < p.2 ∧ L p.1 = L p.2), f p.1 p.2, by
    unfold withinPairs; push_cast; rfl⟩

/-- The hypotheses of `c128_cold` are met by whole numbers on the same map, the temperature 1 and a function
which is 0 up to -1. -/
example {f1 f2 f3 : Nat} {rng : Rng} {out : Option (Labels 4)} {self' : SaObj} {st' : Strat 4 0} {rng' : Rng}
    (hrun : saFit .rowMajor (fun x => if x ≤ -1 then 0 else 1) (pairwise manhattan) f1 f2 f3
      ⟨1, some 2, .int 10, 3, 5⟩ .fresh lake4 (fun i => (![((i.val : Int) : ℚ)] : Row 1)) 2
      (some ![0, 0, 1, 1]) (17 / 20) rng = .ok (out, self', st', rng')) :
    ∃ L, out = some L ∧ Feasible lake4 L 2 ∧
      (pairwise manhattan).call L (fun i => (![((i.val : Int) : ℚ)] : Row 1)) ≤ 2 := by
  have hz : ∀ L : Labels 4, ∃ z : Int, (pairwise manhattan).call L
      (fun i => (![((i.val : Int) : ℚ)] : Row 1)) = z := by
    intro L
    obtain ⟨z, h⟩ := whole_value L fun i j => |(i.val : Int) - j.val|
    refine ⟨z, ?_⟩
    rw [c18_pairwise, ← h]
    congr 1
    funext i j
    simp [manhattan]
  obtain ⟨L, h1, h2, h3⟩ := c128_cold (lo := 0) (term := 10) .rowMajor
    (pairwise_exact (manhattan_comm (m := 1)) manhattan_self) (pairwise_total _)
    (by unfold Spec.Symmetric; decide +kernel) ((nComponents_eq_one_iff _).1 (by decide +kernel))
    ⟨lake4_start, by decide +kernel⟩ (by decide +kernel) (by norm_num) rfl (seen := []) rfl (by norm_num)
    (by
      intro L a r t _ _ hv h0 ht
      obtain ⟨z, hz1⟩ := hz L
      obtain ⟨w, hw1⟩ := hz (moved L a r)
      rw [hz1, hw1] at hv ⊢
      have h1 : (z : Int) + 1 ≤ w := by exact_mod_cast hv
      have h2 : (z : ℚ) + 1 ≤ w := by exact_mod_cast h1
      rw [if_pos]
      rw [div_le_iff₀ h0]
      linarith)
    (fun i => div_nonneg (Nat.cast_nonneg _) (by norm_num)) hrun
  refine ⟨L, h1, h2, h3.trans (le_of_eq ?_)⟩
  decide +kernel

end Region.Props
