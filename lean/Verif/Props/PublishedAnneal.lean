import Verif.Lemmas.PublishedAnneal
import Verif.Props.Anneal
import Verif.Props.Published
import Verif.Props.SaUnlimited
/-
Property theorem C127: the examples of the test suite for simulated annealing.
-/
namespace Region.Props

open Region Spec

/-! ### C127, simulated annealing -/

section
variable {ρ : Type} {metric : ρ → ρ → ℚ} {attr : Fin 9 → ρ} {c : ℚ} {expf : ℚ → ℚ}

/-- Large rises of the value are out of the question. -/
private theorem take_small {T lo : ℚ} (hc : 0 < c)
    (hexp : ∀ x, x ≤ -(c * (2559 / 10)) / T → expf x ≤ lo) {t : ℚ} (h0 : 0 < t) (ht : t ≤ T) {x : ℚ}
    (h : MayTake (cutOff lo expf) t x) : x < c * (2559 / 10) := by
  by_contra hge
  have h2 := h.2
  unfold cutOff at h2
  rw [if_pos (hexp _ ?_)] at h2
  · exact absurd h2 (lt_irrefl _)
  · have h1 : c * (2559 / 10) / T ≤ x / t :=
      div_le_div₀ (le_trans (by positivity) (not_lt.1 hge)) (not_lt.1 hge) h0 ht
    rw [neg_div, neg_div]
    exact neg_le_neg h1

/-- At every temperature the annealing ends with the expected regions. -/
private theorem stay_expected (h : DuqueLike (fun i j => metric (attr i) (attr j)) c) {T lo : ℚ}
    (hexp : ∀ x, x ≤ -(c * (2559 / 10)) / T → expf x ≤ lo) {t : ℚ} (h0 : 0 < t) (ht : t ≤ T)
    {x y : Annealing (Fin 9)} (hx : Feasible duqueAdj x.labels 2)
    (hr : HotRounds duqueAdj (fun L => (pairwise metric).call L attr) (MayTake (cutOff lo expf) t)
      (MayLeave (cutOff lo expf) t) x y) :
    Feasible duqueAdj y.labels 2 ∧ SamePartition y.labels duqueLabels := by
  have hval : (fun L => (pairwise metric).call L attr) = fun L : Labels 9 =>
      withinPairs L fun i j => metric (attr i) (attr j) := funext fun L => c18_pairwise ..
  rw [hval] at hr
  exact duque_rounds h (fun x hx => take_small h.1 hexp h0 ht hx) hr hx

/-- C127 for simulated annealing: with or without a feasible start the expected regions are returned for all
random numbers of at least `lo`, if `lo` bounds the probability of a move raising the value by 255.9 or more. -/
theorem c127_annealing (o : MstOrder) (hd : Dissimilarity metric)
    (h : DuqueLike (fun i j => metric (attr i) (attr j)) c) {initial : Option (Labels 9)}
    (hi : ∀ init, initial = some init → Feasible duqueAdj init 2)
    (hfree : ∀ init, initial = some init → ∀ v, init v ≠ -1) {P : SaParams} {lo : ℚ}
    (hT : 0 < P.initTemperature) (hexp : ∀ x, x ≤ -(c * (2559 / 10)) / P.initTemperature → expf x ≤ lo)
    {term : Nat} (hterm : 0 < term) (hP : P.saMovesTerm = .int term)
    (hlimit : ∀ m, P.maxIt = some m → 0 < m) (hsteps : 0 < P.nonmovingSteps) {self : SaObj}
    {seen : List (Labels 9)} (hself : self.visited = seen.map arrayList) {cooling : ℚ} (hc0 : 0 < cooling)
    (hc1 : cooling < 1) {f1 f2 f3 : Nat} (hf1 : 2 ^ 9 * P.repsBeforeTermination.toNat < f1)
    (hf2 : (term + 1) * (2 ^ 9 + 1) < f2) (hf3 : 9 + 9 ^ 9 < f3) {rng : Rng} (hr : rng.AtLeast lo) :
    ∃ L self' st' rng', saFit o expf (pairwise metric) f1 f2 f3 P self duqueAdj attr 2 initial cooling rng =
      .ok (some L, self', st', rng') ∧ SamePartition L duqueLabels := by
  have hgood : GoodStart duqueAdj 2 initial := by
    cases initial with
    | none =>
      refine ⟨by norm_num, by norm_num, by norm_num, ?_⟩
      rw [(nComponents_eq_one_iff _).2 duque_connected]
      norm_num
    | some init =>
      exact ⟨(hi _ rfl).1, by rw [(hi _ rfl).2]; rfl, fun v => ⟨v, .refl, hfree _ rfl v⟩⟩
  obtain ⟨res, self', st', rng', hrun, -, hsome⟩ := c101_terminates_partial o expf hd f1 f2 f3 P self
    duque_symm attr h.tieFree 2 initial hgood cooling hc0 hc1 term hterm hP (.inr hlimit) hf1 hf2 hf3 rng
  have hrun' := hrun
  rw [saFit_cutOff o expf (pairwise metric) f1 f2 f3 P self duqueAdj attr _ initial cooling hr] at hrun'
  have hstay : ∀ t (x y : Annealing (Fin 9)), 0 < t → t ≤ P.initTemperature → x.worse = 0 →
      Feasible duqueAdj x.labels 2 →
      Stay (cutOff lo expf) (fun L => (pairwise metric).call L attr) duqueAdj P.maxIt term t x y →
      Feasible duqueAdj y.labels 2 ∧ SamePartition y.labels duqueLabels := by
    intro t x y h0 ht hw hx hxy
    exact atTemperature_ends (I := fun L => Feasible duqueAdj L 2)
      (Q := fun L => SamePartition L duqueLabels)
      (fun x y hx hxy => stay_expected h hexp h0 ht hx hxy) hxy hx
      (.inr ⟨fun m hm => by simpa using hlimit m hm, by omega⟩)
  cases initial with
  | some init =>
    obtain ⟨L, rfl, hL⟩ := c128_sound o (pairwise_exact hd.symm hd.zero) (pairwise_total metric)
      duque_symm duque_connected (hi _ rfl) (hfree _ rfl) hterm hP hself hrun'
    refine ⟨L, self', st', rng', hrun, ?_⟩
    exact (annealed_ends (T := P.initTemperature) (I := fun L => Feasible duqueAdj L 2)
      (Q := fun L => SamePartition L duqueLabels) hc0 hc1 hstay hL hT le_rfl (hi _ rfl)
      (.inr (by simpa using hsteps))).2
  | none =>
    rcases (scratch_exact (expf := cutOff lo expf) o (pairwise_exact hd.symm hd.zero) (pairwise_total metric)
      duque_symm duque_connected (attr := attr) (p := 2) le_rfl (by norm_num) hterm hP hself hc0 hc1 res).1
      ⟨_, _, _, _, _, _, _, hrun'⟩ with
      ⟨hno, -⟩ | ⟨-, L, rfl, y, ⟨-, init, hinit, z, hz, hzy⟩, hthen⟩
    · omega
    refine ⟨L, self', st', rng', hrun, ?_⟩
    have hfeas : Feasible duqueAdj init 2 :=
      ⟨(cutFrom_startable hinit).contiguous, (cutFrom_startable hinit).number⟩
    have hz' := stay_expected h hexp hT le_rfl hfeas hz
    have hy := atTemperature_ends (I := fun L => Feasible duqueAdj L 2)
      (Q := fun L => SamePartition L duqueLabels)
      (fun x y hx hxy => stay_expected h hexp hT le_rfl hx hxy) hzy hz'.1 (.inl hz'.2)
    have hT1 : 0 < P.initTemperature * cooling := mul_pos hT hc0
    have hT2 : P.initTemperature * cooling ≤ P.initTemperature := mul_le_of_le_one_right hT.le hc1.le
    rcases hthen with ⟨-, rfl⟩ | ⟨-, -, hA⟩ | ⟨-, -, hA⟩
    · exact hy.2
    · exact (annealed_ends (T := P.initTemperature) (I := fun L => Feasible duqueAdj L 2)
        (Q := fun L => SamePartition L duqueLabels) hc0 hc1 hstay hA hT1 hT2 hy.1 (.inl hy.2)).2
    · exact (annealed_ends (T := P.initTemperature) (I := fun L => Feasible duqueAdj L 2)
        (Q := fun L => SamePartition L duqueLabels) hc0 hc1 hstay hA hT1 hT2 hy.1 (.inl hy.2)).2

/-- C127 is false for simulated annealing if the random numbers can be 0 and moves raising the value by up to
293.7 have a positive probability at the first temperatures: there is a seed for which `fit` with two regions
and no initial labels returns the left column and the rest. -/
theorem c127_annealing_seed (hd : Dissimilarity metric)
    (h : DuqueLike (fun i j => metric (attr i) (attr j)) c) {P : SaParams} (hT : 0 < P.initTemperature)
    {term : Nat} (hterm : 0 < term) (hP : P.saMovesTerm = .int term)
    (hlimit : ∀ m, P.maxIt = some m → 0 < m) (hsteps : 0 < P.nonmovingSteps) {cooling : ℚ} (hc0 : 0 < cooling)
    (hc1 : cooling < 1)
    (hpos : ∀ x, -(c * (2937 / 10)) / (P.initTemperature * cooling ^ P.repsBeforeTermination.toNat) ≤ x →
      x < 0 → 0 < expf x)
    (hleave : ∀ x, x ≤ -(c / 10) / P.initTemperature → expf x ≤ 1 - 1 / 2 ^ 53) :
    ∃ f1 f2 f3 rng L self' st' rng', saFit .rowMajor expf (pairwise metric) f1 f2 f3 P .fresh duqueAdj attr 2
      none cooling rng = .ok (some L, self', st', rng') ∧ ¬ SamePartition L duqueLabels := by
  have hval : (fun L => (pairwise metric).call L attr) = fun L : Labels 9 =>
      withinPairs L fun i j => metric (attr i) (attr j) := funext fun L => c18_pairwise ..
  obtain ⟨lab, hcut, hsame⟩ := leftColumn_cut
  have hwrong : ¬ SamePartition lab duqueLabels := fun hs => by
    have h1 := (hs 0 1).trans (show duqueLabels 0 = duqueLabels 1 ↔ True by decide +kernel)
    have h2 := (hsame 0 1).symm.trans h1
    exact absurd (h2.2 trivial) (by decide +kernel)
  -- the run that leads back, at the first temperatures
  have hrun : ∀ j ≤ P.repsBeforeTermination.toNat, ∀ w b, ∃ y,
      HotRounds duqueAdj (fun L => (pairwise metric).call L attr)
        (MayTake expf (P.initTemperature * cooling ^ j)) (MayLeave expf (P.initTemperature * cooling ^ j))
        ⟨lab, w, b⟩ y ∧ y.labels = lab ∧ y.moved = true := by
    intro j hj w b
    rw [hval]
    have ht0 : 0 < P.initTemperature * cooling ^ j := mul_pos hT (pow_pos hc0 j)
    have ht1 : P.initTemperature * cooling ^ j ≤ P.initTemperature :=
      mul_le_of_le_one_right hT.le (pow_le_one₀ hc0.le hc1.le)
    have htr : P.initTemperature * cooling ^ P.repsBeforeTermination.toNat ≤ P.initTemperature * cooling ^ j :=
      mul_le_mul_of_nonneg_left (pow_le_pow_of_le_one hc0.le hc1.le hj) hT.le
    have htr0 : 0 < P.initTemperature * cooling ^ P.repsBeforeTermination.toNat := mul_pos hT (pow_pos hc0 _)
    refine leftColumn_stuck h (fun x h0 hx => ⟨ht0.ne', hpos _ ?_ ?_⟩) (fun x hx => .inr (hleave _ ?_)) hsame
    · rw [neg_div, neg_div]
      exact neg_le_neg (div_le_div₀ (by have := h.1; positivity) hx htr0 htr)
    · exact div_neg_of_neg_of_pos (neg_lt_zero.2 h0) ht0
    · rw [neg_div, neg_div]
      exact neg_le_neg (div_le_div₀ (le_trans (by have := h.1; positivity) hx) hx ht0 ht1)
  have hstay : ∀ j ≤ P.repsBeforeTermination.toNat, ∀ b, ∃ y,
      Stay expf (fun L => (pairwise metric).call L attr) duqueAdj P.maxIt term
        (P.initTemperature * cooling ^ j) ⟨lab, 0, b⟩ y ∧ y.labels = lab ∧ y.moved = true :=
    fun j hj b => atTemperature_stuck (hrun j hj) 0 0 b
      (.inr ⟨fun m hm => by simpa using hlimit m hm, hterm⟩)
  obtain ⟨z, z1, z2, z3⟩ := hrun 0 (Nat.zero_le _) 0 false
  rw [pow_zero, mul_one] at z1
  obtain ⟨y, y1, y2, y3⟩ := atTemperature_stuck (limit := P.maxIt) (term := term)
    (hrun 0 (Nat.zero_le _)) 1 z.worse z.moved (.inl z3)
  rw [pow_zero, mul_one] at y1
  have hz : (⟨lab, z.worse, z.moved⟩ : Annealing (Fin 9)) = z := by
    cases z
    simp only at z2
    rw [z2]
  rw [hz] at y1
  have hthen : ThenAnnealed P.nonmovingSteps P.repsBeforeTermination cooling
      (Stay expf (fun L => (pairwise metric).call L attr) duqueAdj P.maxIt term) P.initTemperature [] y lab := by
    by_cases hr : P.repsBeforeTermination ≤ 0
    · exact .inl ⟨by simpa using hr, y2.symm⟩
    · refine .inr (.inl ⟨by simpa using hr, y3, ?_⟩)
      have := annealed_stuck hsteps hstay (P.repsBeforeTermination.toNat - 1) 1 [lab] y.worse false
        (by omega) (by simp)
      rw [pow_one] at this
      rw [y2]
      exact this
  obtain ⟨f1, f2, f3, rng, self', st', rng', hfit⟩ := (scratch_exact (expf := expf) .rowMajor
    (pairwise_exact hd.symm hd.zero) (pairwise_total metric) duque_symm duque_connected (attr := attr) (p := 2)
    le_rfl (by norm_num) hterm hP (self := .fresh) (seen := []) rfl hc0 hc1 (some lab)).2
    (.inr ⟨hsteps, lab, rfl, y, ⟨hlimit, lab, hcut, z, z1, y1⟩, hthen⟩)
  exact ⟨f1, f2, f3, rng, lab, self', st', rng', hfit, hwrong⟩

end

/-! ### Examples -/

/-- A function between 0 and 1 that falls fast enough. -/
private def falling (x : ℚ) : ℚ := 1 / (1 - x) ^ 7

private theorem falling_small {x : ℚ} (hx : x ≤ -(1 * (2559 / 10)) / 1) : falling x ≤ 1 / 2 ^ 53 := by
  unfold falling
  have h1 : (2569 / 10 : ℚ) ≤ 1 - x := by linarith
  have h2 : (2569 / 10 : ℚ) ^ 7 ≤ (1 - x) ^ 7 := pow_le_pow_left₀ (by norm_num) h1 7
  exact one_div_le_one_div_of_le (by norm_num) (le_trans (by norm_num) h2)

/-- The hypotheses of `c127_annealing` are met by the data and the parameters of the tests, and by all random
numbers but 0. -/
example (rng : Rng) (hr : ∀ i, rng i % 2 ^ 53 ≠ 0) :
    ∃ L self' st' rng', saFit .rowMajor falling (pairwise manhattan) (2 ^ 9 * 5 + 1) (11 * (2 ^ 9 + 1) + 1)
      (9 + 9 ^ 9 + 1) ⟨1, some 2, .int 10, 3, 5⟩ .fresh duqueAdj (column duqueAttr) 2 none (17 / 20) rng =
      .ok (some L, self', st', rng') ∧ SamePartition L duqueLabels :=
  c127_annealing .rowMajor manhattan_dissimilarity duqueLike_single (by simp) (by simp) (lo := 1 / 2 ^ 53)
    (by norm_num) (fun _ hx => falling_small hx) (term := 10) (by norm_num) rfl (by simp) (by norm_num)
    (seen := []) rfl (by norm_num) (by norm_num) (by decide) (by norm_num) (by norm_num) fun i => by
      have h1 : 1 ≤ rng i % 2 ^ 53 := Nat.one_le_iff_ne_zero.2 (hr i)
      exact div_le_div_of_nonneg_right (by exact_mod_cast h1) (by norm_num)

/-- The hypotheses of `c127_annealing_seed` are met by the same data, parameters and function: among the random
numbers that lead to other regions there must be a 0. -/
example : ∃ f1 f2 f3 rng L self' st' rng', saFit .rowMajor falling (pairwise manhattan) f1 f2 f3
    ⟨1, some 2, .int 10, 3, 5⟩ .fresh duqueAdj (column duqueAttr) 2 none (17 / 20) rng =
      .ok (some L, self', st', rng') ∧ ¬ SamePartition L duqueLabels :=
  c127_annealing_seed manhattan_dissimilarity duqueLike_single (by norm_num) (term := 10) (by norm_num) rfl
    (by simp) (by norm_num) (by norm_num) (by norm_num)
    (fun x _ hx => by
      unfold falling
      have : 0 < 1 - x := by linarith
      positivity)
    (fun x hx => by
      unfold falling
      have h1 : (11 / 10 : ℚ) ≤ 1 - x := by linarith
      have h2 : (11 / 10 : ℚ) ^ 7 ≤ (1 - x) ^ 7 := pow_le_pow_left₀ (by norm_num) h1 7
      have h3 := one_div_le_one_div_of_le (by norm_num) h2
      exact h3.trans (by norm_num))

end Region.Props
