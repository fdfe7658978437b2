import Verif.Lemmas.ReactExactFit
import Verif.Lemmas.IslandMaps
import Verif.Lemmas.AnnealScratch
import Verif.Props.TabuDescent
import Verif.Props.StartAny
import Verif.Props.Units
/-
Property theorems C131: the result of the reactive tabu search.
-/
namespace Region.Props

open Region Spec

theorem pairwise_double {n : Nat} {ρ : Type} {metric : ρ → ρ → ℚ} (hd : Dissimilarity metric) (attr : Fin n → ρ)
    (L L' : Labels n) : (pairwise metric).call L attr < (pairwise metric).call L' attr ↔
      dissimilarity (fun a b => metric (attr a) (attr b)) L < dissimilarity (fun a b => metric (attr a) (attr b)) L' := by
  rw [dissimilarity_fin (fun a b => hd.symm _ _), dissimilarity_fin (fun a b => hd.symm _ _)]
  change pairwiseCall metric L attr < pairwiseCall metric L' attr ↔ _
  rw [pairwiseCall_eq, pairwiseCall_eq]
  constructor <;> intro h <;> linarith

/-- Without initial labels the reactive tabu search starts from a cut of a spanning forest. -/
theorem reactFit_none_iff {n q : Nat} {ρ : Type} (o : MstOrder) (expf : ℚ → ℚ) (obj : Objective ρ) (maxIt : Nat)
    (k1 k2 : Int) (adj : Adj n) (attr : Fin n → ρ) {p : Nat} (h2 : 2 ≤ p) (hpn : p ≤ n) (hcn : nComponents adj ≤ p)
    (self self' : ReactSelf (Strat n q)) (L : Labels n) :
    (∃ rng rng', reactiveTabuFit o expf obj maxIt k1 k2 adj attr p none self rng = .ok (L, self', rng')) ↔
      ∃ init, CutFrom adj (forestOf o adj) p init ∧
        ∃ rng rng', reactiveTabuFit o expf obj maxIt k1 k2 adj attr p (some init) self rng = .ok (L, self', rng') := by
  unfold reactiveTabuFit
  refine fitWith_none_iff (fun idx a init at' self => ?_) h2 hpn hcn
  refine Reads.bind (reactComponentList_reads (strat_ops_reads expf _ _ obj) obj _ a maxIt
    k1 k2 init ⟨self.visited, self.avg, self.repCounter, self.strat.start (obj.call init at'), fun _ => 0⟩) fun y => ?_
  try dsimp only
  exact Reads.then_ _ fun l => Reads.pure (mk := mk2) (l, ReactSelf.mk _ _ _ _)

section
variable {n q : Nat} {ρ : Type} (expf : ℚ → ℚ) {obj : Objective ρ} (he : obj.Exact) (ht : obj.Total) {k1 : Int}
  (hk1 : 1 ≤ k1) (k2 : Int) {maxIt : Nat} (hm : 1 ≤ maxIt)
include he ht hk1 hm

/-- C131 for one component and any objective function that is updated correctly: on a new object
`_azp_connected_component` of the reactive tabu search returns exactly the result of the described procedure and
raises `AttributeError` exactly if the procedure fails; nothing else can happen, whatever the random numbers. -/
theorem c131_component_any {k : Nat} (idx : Fin k → Fin n) {adj : Adj k} (hs : Spec.Symmetric adj) {init : Labels k}
    (hc : AllContiguous adj init) (hn : numRegions init ≠ 1) (attr : Fin k → ρ) (avg v : ℚ) (rep : Nat) (rng : Rng) :
    (∀ L, (∃ self', reactComponentList (Strat.ops (q := q) expf idx attr obj) obj attr adj
        maxIt k1 k2 init ⟨[], avg, rep, .azp v, rng⟩ = .ok (arrayList L, self')) ↔
      ReactResult adj (fun L => obj.call L attr) maxIt init L) ∧
    (reactComponentList (Strat.ops (q := q) expf idx attr obj) obj attr adj
        maxIt k1 k2 init ⟨[], avg, rep, .azp v, rng⟩ = .raise .attributeError ↔
      ReactFails adj (fun L => obj.call L attr) maxIt init) ∧
    ((∃ L, ReactResult adj (fun L => obj.call L attr) maxIt init L) ∨
      ReactFails adj (fun L => obj.call L attr) maxIt init) := by
  rcases reactComponentList_exact (q := q) (expf := expf) (idx := idx) (attr := attr) (k2 := k2) he ht hs hk1
    hc hn hm ⟨[], avg, rep, .azp v, rng⟩ rfl ⟨_, rfl⟩ with ⟨h1, h2⟩ | ⟨out, self', h1, h2⟩
  · rw [h1]
    refine ⟨fun L => ⟨?_, fun h => (reactResult_not_fails h h2).elim⟩, ⟨fun _ => h2, fun _ => rfl⟩, .inr h2⟩
    rintro ⟨_, h⟩
    cases h
  · rw [h1]
    refine ⟨fun L => ⟨?_, fun h => ?_⟩, ⟨?_, fun h => (reactResult_not_fails h2 h).elim⟩, .inl ⟨out, h2⟩⟩
    · rintro ⟨s, h⟩
      rw [Res.ok.injEq, Prod.mk.injEq] at h
      rw [← arrayList_inj h.1]
      exact h2
    · rw [reactResult_unique h h2]
      exact ⟨self', rfl⟩
    · intro h
      cases h

/-- C131 for any objective function that is updated correctly: on a connected map, from a given start with two or
more regions, `fit` on a new object returns exactly the result of the described procedure and raises
`AttributeError` exactly if the procedure fails; nothing else can happen, whatever the random numbers. -/
theorem c131_fit_any (o : MstOrder) {adj : Adj n} (hs : Spec.Symmetric adj) (hcon : Connected adj) (attr : Fin n → ρ)
    {p : Nat} (hp : 2 ≤ p) {init : Labels n} (hi : Feasible adj init p) (hfree : ∀ v, init v ≠ -1) (v : ℚ) (rng : Rng) :
    (∀ L, (∃ self' rng', reactiveTabuFit (q := q) o expf obj maxIt k1 k2 adj attr p (some init)
        (.fresh (.azp v)) rng = .ok (L, self', rng')) ↔
      ReactResult adj (fun L => obj.call L attr) maxIt init L) ∧
    (reactiveTabuFit (q := q) o expf obj maxIt k1 k2 adj attr p (some init)
        (.fresh (.azp v)) rng = .raise .attributeError ↔
      ReactFails adj (fun L => obj.call L attr) maxIt init) ∧
    ((∃ L, ReactResult adj (fun L => obj.call L attr) maxIt init L) ∨
      ReactFails adj (fun L => obj.call L attr) maxIt init) := by
  rw [reactFit_connected o expf obj maxIt k1 k2 hcon attr hi.1 (by exact_mod_cast hi.2) hfree]
  rcases reactComp_exact (q := q) (expf := expf) (attr := attr) (k2 := k2) he ht hs hk1 hi.1
    (by rw [hi.2]; omega) hm v rng with ⟨h1, h2⟩ | ⟨out, self', rng', h1, h2⟩
  · rw [h1]
    refine ⟨fun L => ⟨?_, fun h => (reactResult_not_fails h h2).elim⟩, ⟨fun _ => h2, fun _ => rfl⟩, .inr h2⟩
    rintro ⟨_, _, h⟩
    cases h
  · rw [h1]
    refine ⟨fun L => ⟨?_, fun h => ?_⟩, ⟨?_, fun h => (reactResult_not_fails h2 h).elim⟩, .inl ⟨out, h2⟩⟩
    · rintro ⟨s, r, h⟩
      rw [Res.ok.injEq, Prod.mk.injEq] at h
      rw [← h.1]
      exact h2
    · rw [reactResult_unique h h2]
      exact ⟨self', rng', rfl⟩
    · intro h
      cases h

end

/-- Without a round there is no result: if `max_iterations` is 0 a component with several regions raises
`UnboundLocalError`, whatever happened before. -/
theorem c131_no_rounds {n q k : Nat} {ρ : Type} (expf : ℚ → ℚ) (obj : Objective ρ) (k1 k2 : Int) (idx : Fin k → Fin n)
    (adj : Adj k) {init : Labels k} (hn : numRegions init ≠ 1) (attr : Fin k → ρ) (self : ReactObj (Strat n q)) :
    reactComponentList (Strat.ops expf idx attr obj) obj attr adj 0 k1 k2 init self = .raise .unboundLocalError := by
  unfold reactComponentList
  rw [length_unique_labels, if_neg hn]
  rfl

example (self : ReactObj (Strat 4 0)) := c131_no_rounds (fun _ => 0) (pairwise manhattan) 1 1 id path4
  (init := ![0, 0, 1, 1]) (by decide +kernel) (ramp 4) self

section
variable {n q : Nat} {ρ : Type} (expf : ℚ → ℚ) {metric : ρ → ρ → ℚ} (hd : Dissimilarity metric) {k1 : Int}
  (hk1 : 1 ≤ k1) (k2 : Int) {maxIt : Nat} (hm : 1 ≤ maxIt)
include hd hk1 hm

/-- C131 for one component and the dissimilarity within the regions. -/
theorem c131_component {k : Nat} (idx : Fin k → Fin n) {adj : Adj k} (hs : Spec.Symmetric adj) {init : Labels k}
    (hc : AllContiguous adj init) (hn : numRegions init ≠ 1) (attr : Fin k → ρ) (avg v : ℚ) (rep : Nat) (rng : Rng) :
    (∀ L, (∃ self', reactComponentList (Strat.ops (q := q) expf idx attr (pairwise metric)) (pairwise metric) attr adj
        maxIt k1 k2 init ⟨[], avg, rep, .azp v, rng⟩ = .ok (arrayList L, self')) ↔
      ReactResult adj (dissimilarity fun a b => metric (attr a) (attr b)) maxIt init L) ∧
    (reactComponentList (Strat.ops (q := q) expf idx attr (pairwise metric)) (pairwise metric) attr adj
        maxIt k1 k2 init ⟨[], avg, rep, .azp v, rng⟩ = .raise .attributeError ↔
      ReactFails adj (dissimilarity fun a b => metric (attr a) (attr b)) maxIt init) ∧
    ((∃ L, ReactResult adj (dissimilarity fun a b => metric (attr a) (attr b)) maxIt init L) ∨
      ReactFails adj (dissimilarity fun a b => metric (attr a) (attr b)) maxIt init) := by
  simp only [← reactResult_order (pairwise_double hd attr), ← reactFails_order (pairwise_double hd attr)]
  exact c131_component_any expf (pairwise_exact hd.symm hd.zero) (pairwise_total metric) hk1 k2 hm idx hs hc hn attr avg v
    rep rng

/-- C131 for the dissimilarity within the regions. -/
theorem c131_fit (o : MstOrder) {adj : Adj n} (hs : Spec.Symmetric adj) (hcon : Connected adj) (attr : Fin n → ρ) {p : Nat}
    (hp : 2 ≤ p) {init : Labels n} (hi : Feasible adj init p) (hfree : ∀ v, init v ≠ -1) (v : ℚ) (rng : Rng) :
    (∀ L, (∃ self' rng', reactiveTabuFit (q := q) o expf (pairwise metric) maxIt k1 k2 adj attr p (some init)
        (.fresh (.azp v)) rng = .ok (L, self', rng')) ↔
      ReactResult adj (dissimilarity fun a b => metric (attr a) (attr b)) maxIt init L) ∧
    (reactiveTabuFit (q := q) o expf (pairwise metric) maxIt k1 k2 adj attr p (some init)
        (.fresh (.azp v)) rng = .raise .attributeError ↔
      ReactFails adj (dissimilarity fun a b => metric (attr a) (attr b)) maxIt init) ∧
    ((∃ L, ReactResult adj (dissimilarity fun a b => metric (attr a) (attr b)) maxIt init L) ∨
      ReactFails adj (dissimilarity fun a b => metric (attr a) (attr b)) maxIt init) := by
  simp only [← reactResult_order (pairwise_double hd attr), ← reactFails_order (pairwise_double hd attr)]
  exact c131_fit_any expf (pairwise_exact hd.symm hd.zero) (pairwise_total metric) hk1 k2 hm o hs hcon attr hp hi hfree v
    rng

/-- C131 without initial labels: on a connected map the procedure starts from any clustering one gets by cutting
links of a certain spanning tree. -/
theorem c131_scratch (o : MstOrder) {adj : Adj n} (hs : Spec.Symmetric adj) (hcon : Connected adj) :
    ∃ T, SpanningLinks adj T ∧ ∀ (attr : Fin n → ρ) {p : Nat}, 2 ≤ p → p ≤ n → ∀ (v : ℚ) (L : Labels n),
    (∃ rng self' rng', reactiveTabuFit (q := q) o expf (pairwise metric) maxIt k1 k2 adj attr p none
      (.fresh (.azp v)) rng = .ok (L, self', rng')) ↔
      ∃ init, CutFrom adj T p init ∧
        ReactResult adj (dissimilarity fun a b => metric (attr a) (attr b)) maxIt init L := by
  refine ⟨forestOf o adj, forestOf_spans, fun attr p h2 hpn v L => ?_⟩
  have hcn : nComponents adj ≤ p := by
    rw [(nComponents_eq_one_iff _).2 hcon]
    omega
  have key := fun self' => reactFit_none_iff (q := q) o expf (pairwise metric) maxIt k1 k2 adj attr h2 hpn hcn
    (.fresh (.azp v)) self' L
  have exact' : ∀ init, CutFrom adj (forestOf o adj) p init → ∀ rng, _ := fun init h rng =>
    (c131_fit (q := q) expf hd hk1 k2 hm o hs hcon attr h2
      ⟨(cutFrom_startable h).contiguous, (cutFrom_startable h).number⟩ (cutFrom_startable h).named v rng).1 L
  constructor
  · rintro ⟨rng, self', rng', h⟩
    obtain ⟨init, hi, rng1, rng1', h1⟩ := (key self').1 ⟨rng, rng', h⟩
    exact ⟨init, hi, (exact' init hi rng1).1 ⟨self', rng1', h1⟩⟩
  · rintro ⟨init, hi, h⟩
    obtain ⟨self', rng', h1⟩ := (exact' init hi fun _ => 0).2 h
    obtain ⟨rng2, rng2', h2⟩ := (key self').2 ⟨init, hi, _, rng', h1⟩
    exact ⟨rng2, self', rng2', h2⟩

end

/-- The limits `k1` and `k2`, the random numbers and the order of the tree search are of no importance. -/
theorem c131_chance_free {n q : Nat} {ρ : Type} (expf : ℚ → ℚ) {metric : ρ → ρ → ℚ} (hd : Dissimilarity metric)
    {k1 k1' : Int} (hk1 : 1 ≤ k1) (hk1' : 1 ≤ k1') (k2 k2' : Int) {maxIt : Nat} (hm : 1 ≤ maxIt) (o o' : MstOrder)
    {adj : Adj n} (hs : Spec.Symmetric adj) (hcon : Connected adj) (attr : Fin n → ρ) {p : Nat} (hp : 2 ≤ p)
    {init : Labels n} (hi : Feasible adj init p) (hfree : ∀ v, init v ≠ -1) (v v' : ℚ) (rng rng' : Rng) :
    labelsOf (reactiveTabuFit (q := q) o expf (pairwise metric) maxIt k1 k2 adj attr p (some init)
        (.fresh (.azp v)) rng) =
      labelsOf (reactiveTabuFit (q := q) o' expf (pairwise metric) maxIt k1' k2' adj attr p (some init)
        (.fresh (.azp v')) rng') := by
  obtain ⟨h1, h2, h3⟩ := c131_fit (q := q) expf hd hk1 k2 hm o hs hcon attr hp hi hfree v rng
  obtain ⟨h1', h2', -⟩ := c131_fit (q := q) expf hd hk1' k2' hm o' hs hcon attr hp hi hfree v' rng'
  rcases h3 with ⟨L, h⟩ | h
  · obtain ⟨_, _, e⟩ := (h1 L).2 h
    obtain ⟨_, _, e'⟩ := (h1' L).2 h
    rw [e, e']
    rfl
  · rw [h2.2 h, h2'.2 h]

theorem path4_joined : Connected path4 := (nComponents_eq_one_iff _).1 (by decide +kernel)

/-- `fit` of a new object on the path of four areas. -/
def reactPath (values : Fin 4 → ℚ) (init : Labels 4) (maxIt : Nat) : Res (List Int) := do
  let a ← reactiveTabuFit (q := 0) .rowMajor (fun _ => 0) (pairwise manhattan) maxIt 1 1 path4 (column values) 2
    (some init) (.fresh (.azp 0)) fun _ => 0
  .ok (arrayList a.1)

theorem reactPath_spec {values : Fin 4 → ℚ} {init : Labels 4} {maxIt : Nat} (hm : 1 ≤ maxIt)
    (hi : assertFeasible init path4 (some 2) = .ok ()) (hfree : ∀ v, init v ≠ -1) :
    (∀ L, reactPath values init maxIt = .ok (arrayList L) →
      ReactResult path4 (dissimilarity fun a b => manhattan (column values a) (column values b)) maxIt init L) ∧
    (reactPath values init maxIt = .raise .attributeError →
      ReactFails path4 (dissimilarity fun a b => manhattan (column values a) (column values b)) maxIt init) := by
  have hf := (c04_assert_feasible_ok _ path4 (some 2)).1 hi
  obtain ⟨h1, h2, -⟩ := c131_fit (q := 0) (fun _ => 0) manhattan_dissimilarity (k1 := 1) (by decide) 1 hm .rowMajor
    path4_symm path4_joined (column values) (p := 2) (by decide) (init := init)
    ⟨hf.1, by exact_mod_cast hf.2 2 rfl⟩ hfree 0 fun _ => 0
  constructor
  · intro L h
    unfold reactPath at h
    rw [Res.bind_eq_ok] at h
    obtain ⟨⟨L', st, rng⟩, h3, h4⟩ := h
    rw [Res.ok.injEq] at h4
    exact (h1 L).1 ⟨st, rng, by rw [← arrayList_inj h4]; exact h3⟩
  · intro h
    unfold reactPath at h
    rw [Res.bind_eq_raise] at h
    rcases h with h | ⟨_, _, h⟩
    · exact h2.1 h
    · cases h

/-- A run with an improvement. -/
example : ReactResult path4 (dissimilarity fun a b => manhattan (column ![0, 1, 2, 3] a) (column ![0, 1, 2, 3] b)) 10
    ![0, 0, 0, 1] ![0, 0, 1, 1] :=
  (reactPath_spec (by decide) (by decide +kernel) (by decide)).1 _ (by decide +kernel)

/-- A failure: after two rounds the only move is the way back, which is forbidden. -/
example : ReactFails path4 (dissimilarity fun a b => manhattan (column ![0, 5, 5, 5] a) (column ![0, 5, 5, 5] b)) 10
    ![0, 0, 0, 1] :=
  (reactPath_spec (by decide) (by decide +kernel) (by decide)).2 (by decide +kernel)

/-- With a limit of two rounds the improvement of the second one is lost. -/
example : ReactResult path4 (dissimilarity fun a b => manhattan (column ![0, 5, 5, 5] a) (column ![0, 5, 5, 5] b)) 2
    ![0, 0, 0, 1] ![0, 0, 1, 1] :=
  (reactPath_spec (by decide) (by decide +kernel) (by decide)).1 _ (by decide +kernel)

theorem path4_feasible : Feasible path4 (![0, 0, 0, 1] : Labels 4) 2 :=
  have h := (c04_assert_feasible_ok (![0, 0, 0, 1] : Labels 4) path4 (some 2)).1 (by decide +kernel)
  ⟨h.1, by exact_mod_cast h.2 2 rfl⟩

/-- With another objective function: the distances to the means of the regions. -/
example (rng : Rng) := c131_fit_any (q := 0) (fun _ => 0) (centered_sum_exact manhattan meanRow)
  (centered_total manhattan meanRow List.sum) (k1 := 1) (by decide) 1 (maxIt := 10) (by decide) .rowMajor path4_symm
  path4_joined (ramp 4) (p := 2) (by decide) path4_feasible (by decide) 0 rng

/-- The hypotheses without initial labels are met by the path. -/
example := (c131_scratch (q := 0) (fun _ => 0) manhattan_dissimilarity (k1 := 1) (by decide) 1 (maxIt := 10) (by decide)
  .rowMajor path4_symm path4_joined).imp fun _ h => h.2 (ramp 4) (p := 2) (by decide) (by decide) 0

end Region.Props
