import Verif.Lemmas.TabuExactFit
import Verif.Lemmas.StartIslands
import Verif.Props.TabuDescent
import Verif.Props.AnnealIslands
/-
Property theorems C130: the possible results of the basic tabu search.
-/
namespace Region.Props

open Region Spec

section
variable {n q : Nat} {ρ : Type} (expf : ℚ → ℚ) {metric : ρ → ρ → ℚ} (hd : Dissimilarity metric)
  (len : Option Nat) (reps : Int)
include hd

/-- C130 for one component: with enough rounds, `_azp_connected_component` of the basic tabu search can return
exactly the results of the described procedure. -/
theorem c130_component {k : Nat} (idx : Fin k → Fin n) {adj : Adj k} (hs : Spec.Symmetric adj) (hk : 0 < k)
    {init : Labels k} (hc : AllContiguous adj init) (attr : Fin k → ρ) (v : ℚ) (L : Labels k) :
    (∃ fuel rng st rng', basicComponent (Strat.ops (q := q) expf idx attr (pairwise metric)) (pairwise metric) attr
      adj len reps fuel init (.azp v) rng = .ok (L, st, rng')) ↔
      TabuResult adj (fun l => (pairwise metric).call l attr) len reps init L := by
  rw [← tabuOutN_iff]
  constructor
  · rintro ⟨F, rng, st, rng', h⟩
    exact ⟨F, (basicComponent_sound hd hs hk hc h).1⟩
  · rintro ⟨F, h⟩
    obtain ⟨st, -, h1⟩ := basicComponent_complete (n := n) (q := q) (expf := expf) (idx := idx) hd hs hk hc v h
    obtain ⟨r0, h2⟩ := h1 fun _ => 0
    exact ⟨F, r0, st, _, h2⟩

/-- C130: from a given start `fit` can end with exactly the clusterings which on every island are results of the
described procedure for that island, with the dissimilarities within the regions as the value. -/
theorem c130_fit (o : MstOrder) {adj : Adj n} (hs : Spec.Symmetric adj) (attr : Fin n → ρ) {p : Nat}
    {init : Labels n} (hi : Feasible adj init p) (hm : ∀ v, init v ≠ -1) (v : ℚ) (L : Labels n) :
    (∃ fuel rng st rng', basicTabuFit (q := q) o expf (pairwise metric) fuel len reps adj attr p (some init)
      (.azp v) rng = .ok (L, st, rng')) ↔
      ∀ u, TabuResult (fun a b : Island adj u => adj a b)
        (dissimilarity fun a b : Island adj u => metric (attr a) (attr b)) len reps
        (onIsland adj u init) (onIsland adj u L) :=
  basicFit_exact o hd hs attr hi.1 (by exact_mod_cast hi.2) hm v L

/-- C130 without initial labels: for two or more regions, and no fewer than there are islands, the procedure
starts from any clustering one gets by cutting links of a certain spanning forest. -/
theorem c130_scratch (o : MstOrder) {adj : Adj n} (hs : Spec.Symmetric adj) {us : List (Fin n)}
    (hus : OneOfEach adj us) :
    ∃ T, SpanningLinks adj T ∧ ∀ (attr : Fin n → ρ) {p : Nat}, 2 ≤ p → p ≤ n → us.length ≤ p → ∀ (v : ℚ)
      (L : Labels n),
    (∃ fuel rng st rng', basicTabuFit (q := q) o expf (pairwise metric) fuel len reps adj attr p none
      (.azp v) rng = .ok (L, st, rng')) ↔
      ∃ init, CutFrom adj T p init ∧ ∀ u, TabuResult (fun a b : Island adj u => adj a b)
        (dissimilarity fun a b : Island adj u => metric (attr a) (attr b)) len reps
        (onIsland adj u init) (onIsland adj u L) := by
  refine ⟨forestOf o adj, forestOf_spans, fun attr p h2 hpn hlen v L => ?_⟩
  have hcn : nComponents adj ≤ p := by
    have := (oneOfEach_perm hus).length_eq
    rw [List.length_map, List.length_range] at this
    omega
  have key : ∀ fuel st', (∃ rng rng', basicTabuFit (q := q) o expf (pairwise metric) fuel len reps adj attr p none
      (.azp v) rng = .ok (L, st', rng')) ↔ ∃ init, CutFrom adj (forestOf o adj) p init ∧
        ∃ rng rng', basicTabuFit (q := q) o expf (pairwise metric) fuel len reps adj attr p (some init) (.azp v) rng =
          .ok (L, st', rng') := by
    intro fuel st'
    unfold basicTabuFit
    exact fitWith_none_iff (fun _ a init _ _ =>
      basicComponent_reads (strat_ops_reads expf _ _ (pairwise metric)) (pairwise metric) _ a len reps fuel init _)
      h2 hpn hcn
  have exact' : ∀ init, CutFrom adj (forestOf o adj) p init → _ := fun init h =>
    basicFit_exact (q := q) (expf := expf) (len := len) (reps := reps) o hd hs attr (p := p)
      (cutFrom_startable h).contiguous (by exact_mod_cast (cutFrom_startable h).number) (cutFrom_startable h).named v L
  constructor
  · rintro ⟨fuel, rng, st, rng', h⟩
    obtain ⟨init, hi, rng1, rng1', h1⟩ := (key fuel st).1 ⟨rng, rng', h⟩
    exact ⟨init, hi, (exact' init hi).1 ⟨fuel, rng1, st, rng1', h1⟩⟩
  · rintro ⟨init, hi, h⟩
    obtain ⟨fuel, rng, st, rng', h1⟩ := (exact' init hi).2 h
    obtain ⟨rng2, rng2', h2⟩ := (key fuel st).2 ⟨init, hi, rng, rng', h1⟩
    exact ⟨fuel, rng2, st, rng2', h2⟩

/-- With `tabu_length=0` nothing is left to chance: from a given start there is at most one result. -/
theorem c130_no_tabu (o o' : MstOrder) {adj : Adj n} (hs : Spec.Symmetric adj) (attr : Fin n → ρ) {p : Nat}
    {init : Labels n} (hi : Feasible adj init p) (hm : ∀ v, init v ≠ -1) {v v' : ℚ} {L L' : Labels n}
    {fuel fuel' : Nat} {rng rng' rng1 rng1' : Rng} {st st' : Strat n q}
    (h : basicTabuFit o expf (pairwise metric) fuel (some 0) reps adj attr p (some init) (.azp v) rng =
      .ok (L, st, rng1))
    (h' : basicTabuFit o' expf (pairwise metric) fuel' (some 0) reps adj attr p (some init) (.azp v') rng' =
      .ok (L', st', rng1')) : L = L' := by
  have h1 := (c130_fit expf hd (some 0) reps o hs attr hi hm v L).1 ⟨_, _, _, _, h⟩
  have h2 := (c130_fit expf hd (some 0) reps o' hs attr hi hm v' L').1 ⟨_, _, _, _, h'⟩
  funext a
  exact congrFun (tabuRun_unique (h1 a) (h2 a)) ⟨a, .refl⟩

end

theorem basicRun_result {k : Nat} {adj : Adj k} (hs : Spec.Symmetric adj) (hk : 0 < k) {values : Fin k → ℚ}
    {init : Labels k} (hc : AllContiguous adj init) {len : Option Nat} {reps : Int} {fuel : Nat} {rng : Rng}
    {L : Labels k} (h : basicRun adj values init len reps fuel rng = .ok (arrayList L)) :
    TabuResult adj (fun l => (pairwise manhattan).call l (column values)) len reps init L := by
  unfold basicRun at h
  rw [Res.bind_eq_ok] at h
  obtain ⟨⟨out, st, rng'⟩, h1, h2⟩ := h
  dsimp only at h2
  rw [Res.ok.injEq] at h2
  rw [← arrayList_inj h2]
  exact (c130_component (fun _ => 0) manhattan_dissimilarity len reps id hs hk hc (column values) _ out).1
    ⟨fuel, rng, st, rng', h1⟩

/-- With the default parameters chance can decide: from the same start the procedure has two results, one of
which is better than the other. -/
theorem c130_chance : Feasible house5 (![0, 0, 0, 1, 0] : Labels 5) 2 ∧
    TabuResult house5 (fun l => (pairwise manhattan).call l (column ![23, 0, 4, 13, 8])) none 5
      ![0, 0, 0, 1, 0] ![0, 1, 1, 1, 1] ∧
    TabuResult house5 (fun l => (pairwise manhattan).call l (column ![23, 0, 4, 13, 8])) none 5
      ![0, 0, 0, 1, 0] ![0, 0, 1, 1, 1] ∧
    (pairwise manhattan).call (![0, 0, 1, 1, 1] : Labels 5) (column ![23, 0, 4, 13, 8]) ≠
      (pairwise manhattan).call (![0, 1, 1, 1, 1] : Labels 5) (column ![23, 0, 4, 13, 8]) := by
  have hf : Feasible house5 (![0, 0, 0, 1, 0] : Labels 5) 2 := c114_basic_not_optimal.1
  exact ⟨hf, basicRun_result (fuel := 30) (rng := fun _ => 1) house5_symm (by decide) hf.1 (by decide +kernel),
    basicRun_result (fuel := 30) (rng := fun _ => 0) house5_symm (by decide) hf.1 (by decide +kernel),
    by decide +kernel⟩

/-- The procedure does come to an end with a result other than the start. -/
example : TabuResult path4 (fun l => (pairwise manhattan).call l (column ![0, 1, 2, 3])) none 3
    ![0, 0, 0, 1] ![0, 0, 1, 1] :=
  basicRun_result (fuel := 30) (rng := fun _ => 0) (by unfold Spec.Symmetric; decide +kernel) (by decide)
    ((c04_assert_feasible_ok _ path4 none).1 (by decide +kernel)).1 (by decide +kernel)

/-- The hypotheses are met by two islands with two areas each, three regions and a tabu list of length one. -/
example := c130_fit (q := 0) (fun _ => 0) manhattan_dissimilarity (some 1) 3 .rowMajor (adj := islands4)
  (by unfold Spec.Symmetric; decide +kernel) (ramp 4) (p := 3) (init := ![0, 1, 2, 2])
  ⟨((c04_assert_feasible_ok _ islands4 none).1 (by decide +kernel)).1, by decide +kernel⟩ (by decide) 0

/-- With a tabu list of length zero the search does end, with different numbers of rounds and random numbers. -/
example : (do
    let a ← basicTabuFit (q := 0) .rowMajor (fun _ => 0) (pairwise manhattan) 20 (some 0) 3 path4 (ramp 4) 2
      (some ![0, 0, 0, 1]) (.azp 0) fun _ => 0
    let b ← basicTabuFit (q := 0) .rowMajor (fun _ => 0) (pairwise manhattan) 30 (some 0) 3 path4 (ramp 4) 2
      (some ![0, 0, 0, 1]) (.azp 5) fun _ => 1
    pure (arrayList a.1, arrayList b.1)) = Res.ok ([0, 0, 1, 1], [0, 0, 1, 1]) := by decide +kernel

/-- The hypotheses without initial labels are met by two islands. -/
example := (c130_scratch (q := 0) (fun _ => 0) manhattan_dissimilarity none 3 .rowMajor (adj := isles5)
  (by unfold Spec.Symmetric; decide +kernel) isles5_each).imp fun _ h =>
    h.2 (ramp 5) (p := 3) (by decide) (by decide) (by decide) 0

end Region.Props
