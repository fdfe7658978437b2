import Verif.Lemmas.PublishedDescent
import Verif.Lemmas.TabuGuarded
import Verif.Lemmas.OneIsland
/-
The tabu searches on the data of the tests of the p-regions methods.
-/
namespace Region

open Spec Relation Props

section
variable {d : Fin 9 → Fin 9 → ℚ} {c : ℚ}

/-- No move to a region leaves the objective as it is. -/
theorem duque_no_tie (h : DuqueLike d c) {L : Labels 9} {a : Fin 9} {r : Int}
    (hne : L a ≠ r) (hr : ∃ u, L u = r) : withinPairs (moved L a r) d ≠ withinPairs L d := by
  rw [withinPairs_moved L d h.symm h.zero a r]
  intro heq
  have hsum : ∑ i ∈ Finset.univ.filter (fun i => L i = L a), d i a =
      ∑ i ∈ (Finset.univ.filter fun i => L i = L a).erase a, d i a := by
    rw [← Finset.add_sum_erase _ _ (a := a) (by simp), h.zero, zero_add]
  obtain ⟨u, hu⟩ := hr
  refine h.tieFree a (Finset.univ.filter fun i => L i = r)
    ((Finset.univ.filter fun i => L i = L a).erase a) ⟨u, by simpa using hu⟩
    (by simpa using hne) (by simp) ?_ (by rw [← hsum]; linarith)
  rw [Finset.disjoint_left]
  intro i hi hi'
  simp only [Finset.mem_filter, Finset.mem_univ, true_and, Finset.mem_erase] at hi hi'
  exact hne (hi'.2.symm.trans hi)

/-- The left column against the rest. -/
def leftColumn : Labels 9 := ![0, 1, 1, 0, 1, 1, 0, 1, 1]

theorem leftColumn_feasible : Feasible duqueAdj leftColumn 2 :=
  duque_feasible_of (x := 0) (y := 1) (m := 0b001001001) (by decide +kernel) (by decide +kernel)
    (by decide +kernel) (by decide +kernel) (by decide +kernel)

theorem leftColumn_free : ∀ v, leftColumn v ≠ -1 := by decide +kernel

theorem TwoReg.same {n m : Nat} {L : Labels n} {x y : Int} (h : TwoReg L m x y) (i k : Fin n) :
    m.testBit i.val = m.testBit k.val ↔ L i = L k := by
  cases hi : m.testBit i.val <;> cases hk : m.testBit k.val
  · simp [(h.right i).1 hi, (h.right k).1 hk]
  · simp [(h.right i).1 hi, (h.left k).1 hk, h.ne.symm]
  · simp [(h.left i).1 hi, (h.right k).1 hk, h.ne]
  · simp [(h.left i).1 hi, (h.left k).1 hk]

theorem leftColumn_mask : TwoReg leftColumn 0b001001001 0 1 :=
  ⟨by norm_num, by norm_num, by decide +kernel, by decide +kernel⟩

/-- Fewer than five steps do not lead from the left column against the rest to the expected regions. -/
theorem duque_too_far {init : Labels 9} {x y : Int} (hm : TwoReg init 0b001001001 x y) (h : DuqueLike d c)
    {j : Nat} (hj : j < 5) {out : Labels 9}
    (hd : Descent duqueAdj (fun L => withinPairs L d) j init out) : ¬ SamePartition out duqueLabels := by
  obtain ⟨m', hm', hreg⟩ := hm.descent h.map hd
  intro hsame
  have h1 : m' ≠ 0b111011000 ∧ m' ≠ 0b000100111 := by
    have key : ∀ j < 5, ∀ m' ∈ afterSteps duqueNb duqueGap 9 j 0b001001001,
        m' ≠ 0b111011000 ∧ m' ≠ 0b000100111 := by decide +kernel
    exact key j hj m' hm'
  have hbit : ∀ i k : Fin 9, m'.testBit i.val = m'.testBit k.val ↔ duqueLabels i = duqueLabels k := by
    intro i k
    rw [← hsame i k]
    exact hreg.same i k
  have hall : ∀ m < 2 ^ 9, m ≠ 0b111011000 ∧ m ≠ 0b000100111 →
      ¬ ∀ i k : Fin 9, m.testBit i.val = m.testBit k.val ↔ duqueLabels i = duqueLabels k := by
    decide +kernel
  exact hall m' hreg.lt h1 hbit

end

section
variable {ρ : Type} {metric : ρ → ρ → ℚ} {attr : Fin 9 → ρ} {c : ℚ}

theorem duque_call (L : Labels 9) : (pairwise metric).call L attr =
    withinPairs L fun i j => metric (attr i) (attr j) := c18_pairwise _ _ _

/-- The relation kept by the basic tabu search: the areas that have moved are in `seen`. -/
def DuqueGuard (L : Labels 9) (items : List (Move 9)) : Prop :=
  ∃ m x y k seen, TwoReg L m x y ∧ guarded duqueNb duqueGap 9 k m seen = true ∧
    ∀ it ∈ items, seen.testBit it.area.val = true ∧ it.old ≠ it.new ∧ (it.new = x ∨ it.new = y)

theorem duque_guards (h : DuqueLike (fun i j => metric (attr i) (attr j)) c) :
    Guards (pairwise metric) attr duqueAdj DuqueGuard where
  tabu := by
    rintro L items ⟨m, x, y, k, seen, hm, hg, hit⟩ it hmem hold
    obtain ⟨h1, h2, h3⟩ := hit it hmem
    rw [duque_call, duque_call, hm.value h.symm h.zero h.gap it.area (by rw [hold]; exact h2) h3]
    have h4 := guarded_seen hg it.area.isLt h1
    have : (0 : ℚ) ≤ (change duqueGap 9 m it.area.val : ℚ) := by exact_mod_cast h4
    have h5 : 0 < c / 10 := div_pos h.1 (by norm_num)
    have := mul_nonneg h5.le this
    linarith
  step := by
    rintro L items a r ⟨m, x, y, k, seen, hm, hg, hit⟩ hadm hle hmin items' hsub
    simp only [duque_call] at hle hmin
    obtain ⟨h1, h2⟩ := hm.best_mem h.map hadm (lt_of_le_of_ne hle (duque_no_tie h hadm.1
      (hadm.2.1.imp fun _ h => h.1))) hmin
    obtain ⟨k', -, hg'⟩ := guarded_step hg h1
    refine ⟨_, x, y, k', _, h2, hg', fun it hmem => ?_⟩
    rcases hsub it hmem with hin | rfl
    · obtain ⟨h3, h4⟩ := hit it hin
      exact ⟨by rw [Nat.testBit_or, h3]; rfl, h4⟩
    · refine ⟨?_, hadm.1.symm, ?_⟩
      · rw [Nat.testBit_or, (one_shift _ _).2 rfl, Bool.or_true]
      · change L a = x ∨ L a = y
        cases ha : m.testBit a.val with
        | true => exact .inl ((hm.left a).1 ha)
        | false => exact .inr ((hm.right a).1 ha)

/-- What a guard gives for the basic tabu search on a component. -/
theorem basicComponent_guarded {n q k p : Nat} {attr : Fin k → ρ} {adj : Adj k} (hs : Symmetric adj)
    (expf : ℚ → ℚ) (hd : Dissimilarity metric) (idx : Fin k → Fin n) {init : Labels k}
    (hi : Feasible adj init p) (hp : p ≠ 1) (hno : NoTies init (pairwise metric) attr)
    {H : Labels k → List (Move k) → Prop} (hH : Guards (pairwise metric) attr adj H) (h0 : H init [])
    (len : Option Nat) (reps : Int) {fuel : Nat} (hf : p ^ k * (reps.toNat + 1) < fuel) (v : ℚ)
    (rng : Rng) :
    (basicComponent (Strat.ops (q := q) expf idx attr (pairwise metric)) (pairwise metric) attr adj
      len reps fuel init (.azp v) rng).Post False False fun r => Feasible adj r.1 p ∧
        LocalOptimum adj (fun L => (pairwise metric).call L attr) r.1 := by
  have he : (pairwise metric).Exact := pairwise_exact hd.symm hd.zero
  obtain ⟨⟨L, st', rng'⟩, hok, -, hkeep, -⟩ := (basicComponent_post (q := q) expf hd idx hi.1 attr len reps
    fuel False (fun _ => ⟨hno, by rw [hi.2]; exact hf⟩) ⟨v, rfl⟩ rng).total
  refine Res.Post.of_ok hok ⟨⟨hkeep.1, ?_⟩, ?_⟩
  · rw [← hi.2]
    unfold numRegions
    congr 1
    ext x
    simpa using hkeep.2 x
  · unfold basicComponent at hok
    rw [length_unique_labels, if_neg (by rw [hi.2]; exact hp), Res.bind_eq_ok] at hok
    obtain ⟨s, h1, h2⟩ := hok
    cases h2
    exact (basicLoop_guarded (P := fun st => ∃ v, st = .azp v) hs he
      (azp_nonWorsening expf idx attr _) hH reps fuel _ ⟨hi.1, ⟨v, rfl⟩, h0⟩).ok h1

/-- The basic tabu search on the component. -/
theorem duque_basic {n q : Nat} (expf : ℚ → ℚ) (hd : Dissimilarity metric)
    (h : DuqueLike (fun i j => metric (attr i) (attr j)) c) (idx : Fin 9 → Fin n) {init : Labels 9}
    (hi : Feasible duqueAdj init 2) (len : Option Nat) (reps : Int) {fuel : Nat}
    (hf : 2 ^ 9 * (reps.toNat + 1) < fuel) (v : ℚ) (rng : Rng) :
    (basicComponent (Strat.ops (q := q) expf idx attr (pairwise metric)) (pairwise metric) attr duqueAdj
      len reps fuel init (.azp v) rng).Post False False fun p => SamePartition p.1 duqueLabels := by
  have he : (pairwise metric).Exact := pairwise_exact hd.symm hd.zero
  have hno : NoTies init (pairwise metric) attr := by
    intro L _ a r hne hu
    refine duque_no_tie h hne (pairwise_update_iff.1 hu).1 ?_
    have := he _ _ _ _ _ hu
    rw [duque_call, duque_call] at this
    linarith
  obtain ⟨m, x, y, hm, hg, -⟩ := duque_start hi
  refine (basicComponent_guarded (q := q) duque_symm expf hd idx hi (by norm_num) hno (duque_guards h)
    ⟨m, x, y, 5, 0, hm, hg, by simp⟩ len reps hf v rng).mono id id ?_
  rintro ⟨L, st', rng'⟩ ⟨hL, hloc⟩
  refine duque_unique h hL fun a u hadm => ?_
  have := hloc a (L u) hadm
  change (pairwise metric).call _ attr ≤ (pairwise metric).call _ attr at this
  rwa [duque_call, duque_call] at this

/-- The reactive tabu search on the component. -/
theorem duque_reactive {n q : Nat} (expf : ℚ → ℚ) (hd : Dissimilarity metric)
    (h : DuqueLike (fun i j => metric (attr i) (attr j)) c) (idx : Fin 9 → Fin n) {init : Labels 9}
    (hi : Feasible duqueAdj init 2) (k1 k2 : Int) (hk1 : 1 ≤ k1) {maxIt : Nat} (hm : 2 ≤ maxIt)
    (avg : ℚ) (rep : Nat) (v : ℚ) (rng : Rng) :
    ∃ (out : Labels 9) (self' : ReactObj (Strat n q)),
      reactComponentList (Strat.ops (q := q) expf idx attr (pairwise metric)) (pairwise metric) attr
        duqueAdj maxIt k1 k2 init ⟨[], avg, rep, .azp v, rng⟩ = .ok (arrayList out, self') ∧
      ∃ j, j < maxIt ∧ Descent duqueAdj (fun L => withinPairs L fun i j => metric (attr i) (attr j)) j init
        out ∧ (SamePartition out duqueLabels ∨ (j + 1 = maxIt ∧ ∃ last, Steepest duqueAdj
          (fun L => withinPairs L fun i j => metric (attr i) (attr j)) out last)) := by
  have he : (pairwise metric).Exact := pairwise_exact hd.symm hd.zero
  have hfun : (fun L => (pairwise metric).call L attr) =
      fun L => withinPairs L fun i j => metric (attr i) (attr j) := funext fun L => duque_call L
  have huniq : ∀ {j out}, Descent duqueAdj (fun L => withinPairs L fun i j => metric (attr i) (attr j)) j
      init out → LocalOptimum duqueAdj (fun L => withinPairs L fun i j => metric (attr i) (attr j)) out →
      SamePartition out duqueLabels := fun h1 h2 =>
    duque_unique h (feasible_descent hi h1) fun a u hadm => h2 a _ hadm
  rcases c114_reactive_is_descent (q := q) expf he (pairwise_total metric) idx attr duque_symm init hi.1
    (by rw [hi.2]; norm_num) k1 k2 hk1 maxIt (by omega) avg rep v rng with ⟨-, hdead⟩ | ⟨out, self', h1, h2⟩
  · exfalso
    rw [hfun] at hdead
    rcases hdead with ⟨-, hdead⟩ | ⟨j, before, after, -, h1, h2, h3⟩
    · obtain ⟨a, -, r, -, -, hadm, -⟩ := duque_moves hi
      exact hdead a r hadm
    · obtain ⟨a, b, r, s, hab, ha, hb⟩ := duque_moves (feasible_descent hi (.step h1 h2))
      have := (h3 a r ha).trans (h3 b s hb).symm
      have := congrFun this a
      rw [moved_self, moved_of_ne hab] at this
      exact ha.1 this.symm
  · rw [hfun] at h2
    refine ⟨out, self', h1, ?_⟩
    rcases h2 with ⟨j, h2, h3, h4⟩ | ⟨-, h2, a, r, hadm, rfl⟩ | ⟨rfl, -⟩ | ⟨last, h2, h3, h4⟩
    · exact ⟨j, h2, h3, .inl (huniq h3 h4)⟩
    · exact absurd h2 (duque_no_tie h hadm.1 (hadm.2.1.imp fun _ h => h.1))
    · omega
    · exact ⟨maxIt - 1, by omega, h3, .inr ⟨by omega, last, h4⟩⟩

end

end Region
