import Verif.Lemmas.LocalMap
import Verif.Props.AzpTabu
/-
C114: what the tabu searches return is a local optimum.
-/
namespace Region.Props

open Spec Relation

/-! ### Steepest descents -/

theorem descent_image {k : Nat} {adj : Adj k} {f : Labels k → ℚ} {j : Nat} {init L : Labels k}
    (h : Descent adj f j init L) : ∀ x, (∃ i, L i = x) ↔ ∃ i, init i = x := by
  induction h with
  | start => exact fun _ => Iff.rfl
  | step _ h2 ih =>
    obtain ⟨_, ⟨a, r, ha, rfl⟩, _⟩ := h2
    exact fun x => (moved_image ha x).trans (ih x)

/-- A descent is shorter than the number of labellings. -/
theorem descent_short {k : Nat} {adj : Adj k} {f : Labels k → ℚ} {j : Nat} {init L : Labels k}
    (h : Descent adj f j init L) : j < numRegions init ^ k := by
  have key : better init f (f L) + j ≤ better init f (f init) := by
    induction h with
    | start => simp
    | step h1 h2 ih =>
      have := better_lt h2.1 (mem_relabelings.2 fun v => (descent_image (.step h1 h2) _).1 ⟨v, rfl⟩)
      omega
  have hlt : better init f (f init) < (relabelings init).card := by
    unfold better
    refine Finset.card_lt_card (Finset.filter_ssubset.2 ⟨init, ?_, by simp⟩)
    exact mem_relabelings.2 fun v => ⟨v, rfl⟩
  rw [card_relabelings] at hlt
  omega

theorem numRegions_one {k : Nat} {init : Labels k} (h : numRegions init = 1) (u v : Fin k) :
    init u = init v := by
  obtain ⟨x, hx⟩ := Finset.card_eq_one.1 h
  have : ∀ w, init w = x := fun w => Finset.mem_singleton.1 (hx ▸ Finset.mem_image_of_mem _
    (Finset.mem_univ w))
  rw [this, this]

/-- Local optimality can be checked by trying the possible moves. -/
theorem localOptimum_iff {k : Nat} {adj : Adj k} (hs : Symmetric adj) {f : Labels k → ℚ}
    {L : Labels k} : LocalOptimum adj f L ↔
      ∀ m ∈ possibleMoves adj L ⟨[], none⟩, f L ≤ f (moved L m.area m.new) := by
  constructor
  · intro h m hm
    exact h _ _ ((mem_possibleMoves hs).1 hm).2.1
  · intro h a r har
    exact h ⟨a, L a, r⟩ ((mem_possibleMoves hs).2 ⟨rfl, har, by simp⟩)

/-! ### Reactive tabu search -/

/-- C114, reactive tabu search on a fresh object with the default strategy, `k1 ≥ 1` and an exact
objective.  With several regions it is a steepest descent of at most `max_iterations` steps: it raises
`AttributeError`, and then some descent leads into a dead end, or it returns a result of such a
descent.  Nothing else happens, whatever the random draws. -/
theorem c114_reactive_is_descent {n q k : Nat} {ρ : Type} (expf : ℚ → ℚ) {obj : Objective ρ}
    (he : obj.Exact) (ht : obj.Total) (idx : Fin k → Fin n) (attr : Fin k → ρ) {adj : Adj k}
    (hs : Symmetric adj) (init : Labels k) (hc : AllContiguous adj init) (hn : numRegions init ≠ 1)
    (k1 k2 : Int) (hk1 : 1 ≤ k1) (maxIt : Nat) (hm : 1 ≤ maxIt) (avg : ℚ) (rep : Nat) (v : ℚ)
    (rng : Rng) :
    (reactComponentList (Strat.ops (q := q) expf idx attr obj) obj attr adj maxIt k1 k2 init
        ⟨[], avg, rep, .azp v, rng⟩ = .raise .attributeError ∧
      DeadEnd adj (fun L => obj.call L attr) maxIt init) ∨
    ∃ out self', reactComponentList (Strat.ops (q := q) expf idx attr obj) obj attr adj maxIt k1 k2
        init ⟨[], avg, rep, .azp v, rng⟩ = .ok (arrayList out, self') ∧
      DescentResult adj (fun L => obj.call L attr) maxIt init out := by
  rcases reactComponentList_outcome hs he ht (azp_nonWorsening (q := q) expf idx attr obj) hc hk1 k2
    hm hn ⟨[], avg, rep, .azp v, rng⟩ rfl ⟨v, rfl⟩ with h | ⟨self', out, h1, h2, _⟩
  · exact .inl h
  · exact .inr ⟨out, self', h1, h2⟩

example : Symmetric path4 ∧ AllContiguous path4 (![0, 0, 0, 1] : Labels 4) ∧
    numRegions (![0, 0, 0, 1] : Labels 4) ≠ 1 ∧
    reactRun path4 ![0, 1, 2, 3] ![0, 0, 0, 1] 10 1 1 [] (fun _ => 0) =
      .ok ([0, 0, 1, 1], [[0, 0, 1, 1], [0, 0, 1, 1]]) :=
  ⟨path4_symm, ((c04_assert_feasible_ok _ path4 none).1 (by decide +kernel)).1, by decide +kernel,
    by decide +kernel⟩

/-- The dead end of a descent: after two steps the only move leads back and is tabu. -/
example : reactRun path4 ![0, 5, 5, 5] ![0, 0, 0, 1] 10 1 1 [] (fun _ => 0) =
    .raise .attributeError := by decide +kernel

/-- C114 (part), reactive tabu search: if `max_iterations` is at least the number of labellings with
the region labels of the start, the result is a local optimum, unless the start is one and the result
is one value-neutral move away from it.  Missing: that case (`c114_sideways`), smaller
`max_iterations` (`c68_last_improvement_lost`), other strategies, used objects and `k1 = 0`. -/
theorem c114_reactive_partial {n q k : Nat} {ρ : Type} (expf : ℚ → ℚ) {obj : Objective ρ}
    (he : obj.Exact) (ht : obj.Total) (idx : Fin k → Fin n) (attr : Fin k → ρ) {adj : Adj k}
    (hs : Symmetric adj) (init : Labels k) (hc : AllContiguous adj init)
    (k1 k2 : Int) (hk1 : 1 ≤ k1) (maxIt : Nat) (hm : numRegions init ^ k ≤ maxIt) (hm1 : 1 ≤ maxIt)
    (avg : ℚ) (rep : Nat) (v : ℚ) (rng : Rng) {out : Labels k} {self' : ReactObj (Strat n q)}
    (h : reactComponentList (Strat.ops (q := q) expf idx attr obj) obj attr adj maxIt k1 k2 init
      ⟨[], avg, rep, .azp v, rng⟩ = .ok (arrayList out, self')) :
    LocalOptimum adj (fun L => obj.call L attr) out ∨
    (LocalOptimum adj (fun L => obj.call L attr) init ∧
      Sideways adj (fun L => obj.call L attr) init out) := by
  by_cases hn : numRegions init = 1
  · left
    unfold reactComponentList at h
    rw [length_unique_labels, if_pos hn] at h
    simp only [Res.ok.injEq, Prod.mk.injEq] at h
    have := arrayList_inj h.1
    subst this
    intro a r har
    exfalso
    obtain ⟨hne, ⟨u, hu, _⟩, _⟩ := har
    exact hne (by rw [← hu]; exact numRegions_one hn a u)
  · rcases c114_reactive_is_descent (q := q) expf he ht idx attr hs init hc hn k1 k2 hk1 maxIt hm1 avg
      rep v rng with ⟨h1, _⟩ | ⟨out', s', h1, h2⟩
    · rw [h1] at h; cases h
    · rw [h1] at h
      simp only [Res.ok.injEq, Prod.mk.injEq] at h
      have := arrayList_inj h.1
      subst this
      rcases h2 with ⟨_, _, _, h2⟩ | h2 | ⟨h2, h3⟩ | ⟨last, h2, h3, h4⟩
      · exact .inl h2
      · exact .inr h2
      · have := descent_short (.step (.start _) h3)
        omega
      · have := descent_short (.step h3 h4)
        omega

/-- C68 (part): on a fresh object with `k1 ≥ 1`, the default strategy and an exact objective, if
`max_iterations` is at least the number of labellings with the region labels of the start, the result is
at least as good as every labelling visited.  Missing: smaller `max_iterations`
(`c68_last_improvement_lost`), used objects and `k1 = 0`. -/
theorem c68_best_partial {n q k : Nat} {ρ : Type} (expf : ℚ → ℚ) {obj : Objective ρ}
    (he : obj.Exact) (ht : obj.Total) (idx : Fin k → Fin n) (attr : Fin k → ρ) {adj : Adj k}
    (hs : Symmetric adj) (init : Labels k) (hc : AllContiguous adj init)
    (k1 k2 : Int) (hk1 : 1 ≤ k1) (maxIt : Nat) (hm : numRegions init ^ k ≤ maxIt) (hm1 : 1 ≤ maxIt)
    (avg : ℚ) (rep : Nat) (v : ℚ) (rng : Rng) {out : Labels k} {self' : ReactObj (Strat n q)}
    (h : reactComponentList (Strat.ops (q := q) expf idx attr obj) obj attr adj maxIt k1 k2 init
      ⟨[], avg, rep, .azp v, rng⟩ = .ok (arrayList out, self')) :
    ∀ l ∈ self'.visited, ∃ L : Labels k, l = arrayList L ∧ obj.call out attr ≤ obj.call L attr := by
  by_cases hn : numRegions init = 1
  · unfold reactComponentList at h
    rw [length_unique_labels, if_pos hn] at h
    simp only [Res.ok.injEq, Prod.mk.injEq] at h
    rw [← h.2]
    simp
  · rcases reactComponentList_outcome hs he ht (azp_nonWorsening (q := q) expf idx attr obj) hc hk1 k2
      hm1 hn ⟨[], avg, rep, .azp v, rng⟩ rfl ⟨v, rfl⟩ with ⟨h1, _⟩ | ⟨s', out', h1, _, h2⟩
    · rw [h1] at h; cases h
    · rw [h1] at h
      simp only [Res.ok.injEq, Prod.mk.injEq] at h
      have h3 := arrayList_inj h.1
      subst h3
      rw [← h.2]
      obtain ⟨pre, last, h3, h4, h5⟩ := h2
      rw [h3]
      intro l hl
      rcases List.mem_append.1 hl with hl | hl
      · obtain ⟨L, hL, rfl⟩ := List.mem_map.1 hl
        exact ⟨L, rfl, h4 L hL⟩
      · rw [List.mem_singleton] at hl
        refine ⟨last, hl, ?_⟩
        rcases h5 with h5 | ⟨h5, h6, h7⟩
        · exact h5
        · have := descent_short (.step h6 h7)
          omega

example : numRegions (![0, 0, 0, 1] : Labels 4) ^ 4 ≤ 16 ∧
    reactRun path4 ![0, 1, 5, 9] ![0, 0, 0, 1] 16 1 1 [] (fun _ => 0) =
      .ok ([0, 0, 1, 1], [[0, 0, 1, 1], [0, 0, 1, 1]]) :=
  ⟨by decide +kernel, by decide +kernel⟩

/-- C68 (part): in every run that returns, on a fresh object with `k1 ≥ 1`, the default strategy and an
exact objective, the result is at least as good as every labelling visited before the last one.
Missing: the last one. -/
theorem c68_all_but_last_partial {n q k : Nat} {ρ : Type} (expf : ℚ → ℚ) {obj : Objective ρ}
    (he : obj.Exact) (ht : obj.Total) (idx : Fin k → Fin n) (attr : Fin k → ρ) {adj : Adj k}
    (hs : Symmetric adj) (init : Labels k) (hc : AllContiguous adj init)
    (k1 k2 : Int) (hk1 : 1 ≤ k1) (maxIt : Nat) (hm1 : 1 ≤ maxIt)
    (avg : ℚ) (rep : Nat) (v : ℚ) (rng : Rng) {out : Labels k} {self' : ReactObj (Strat n q)}
    (h : reactComponentList (Strat.ops (q := q) expf idx attr obj) obj attr adj maxIt k1 k2 init
      ⟨[], avg, rep, .azp v, rng⟩ = .ok (arrayList out, self')) :
    ∀ l ∈ self'.visited.dropLast, ∃ L : Labels k, l = arrayList L ∧
      obj.call out attr ≤ obj.call L attr := by
  by_cases hn : numRegions init = 1
  · unfold reactComponentList at h
    rw [length_unique_labels, if_pos hn] at h
    simp only [Res.ok.injEq, Prod.mk.injEq] at h
    rw [← h.2]
    simp
  · rcases reactComponentList_outcome hs he ht (azp_nonWorsening (q := q) expf idx attr obj) hc hk1 k2
      hm1 hn ⟨[], avg, rep, .azp v, rng⟩ rfl ⟨v, rfl⟩ with ⟨h1, _⟩ | ⟨s', out', h1, _, h2⟩
    · rw [h1] at h; cases h
    · rw [h1] at h
      simp only [Res.ok.injEq, Prod.mk.injEq] at h
      have h3 := arrayList_inj h.1
      subst h3
      rw [← h.2]
      obtain ⟨pre, last, h3, h4, _⟩ := h2
      rw [h3, List.dropLast_concat]
      intro l hl
      obtain ⟨L, hL, rfl⟩ := List.mem_map.1 hl
      exact ⟨L, rfl, h4 L hL⟩

example : reactRun path5 ![0, 10, 10, 10, 10] ![0, 0, 0, 0, 1] 2 1 1 [] (fun _ => 0) =
    .ok ([0, 0, 0, 1, 1], [[0, 0, 0, 1, 1], [0, 0, 1, 1, 1]]) := by decide +kernel

/-- C114 is false for reactive tabu search in the remaining case: the start is a local optimum, a
value-neutral move is made, and the result of that is returned although it can be improved. -/
theorem c114_sideways :
    Feasible ring4 (![1, 0, 0, 1] : Labels 4) 2 ∧
    reactRun ring4 ![1, 0, 7, 8] ![1, 0, 0, 1] 20 1 1 [] (fun _ => 0) =
      .ok ([0, 0, 0, 1], [[0, 0, 0, 1]]) ∧
    ¬ LocalOptimum ring4 (fun L => (pairwise manhattan).call L (column ![1, 0, 7, 8]))
      ![0, 0, 0, 1] := by
  refine ⟨⟨((c04_assert_feasible_ok _ ring4 none).1 (by decide +kernel)).1, by decide +kernel⟩,
    by decide +kernel, ?_⟩
  rw [localOptimum_iff ring4_symm]
  decide +kernel

/-! ### Basic tabu search -/

/-- C114 (part), basic tabu search with the default strategy and an exact objective: with a tabu list of
length 0 or 1 whatever is returned is a local optimum.  Missing: longer lists, in particular the
default (`c114_basic_not_optimal`), and other strategies. -/
theorem c114_basic_partial {n q k : Nat} {ρ : Type} (expf : ℚ → ℚ) {obj : Objective ρ}
    (he : obj.Exact) (idx : Fin k → Fin n) (attr : Fin k → ρ) {adj : Adj k} (hs : Symmetric adj)
    (init : Labels k) (hc : AllContiguous adj init) (len : Nat) (hlen : len ≤ 1) (reps : Int)
    (fuel : Nat) (v : ℚ) (rng : Rng) {out : Labels k} {st' : Strat n q} {rng' : Rng}
    (h : basicComponent (Strat.ops expf idx attr obj) obj attr adj (some len) reps fuel init (.azp v)
      rng = .ok (out, st', rng')) :
    LocalOptimum adj (fun L => obj.call L attr) out := by
  unfold basicComponent at h
  rw [length_unique_labels] at h
  split_ifs at h with hn
  · cases h
    intro a r har
    exfalso
    obtain ⟨hne, ⟨u, hu, _⟩, _⟩ := har
    exact hne (by rw [← hu]; exact numRegions_one hn a u)
  · rw [Res.bind_eq_ok] at h
    obtain ⟨s, h1, h2⟩ := h
    cases h2
    exact (basicLoop_harmless hs he (azp_nonWorsening (q := q) expf idx attr obj) reps fuel _
      ⟨hc, ⟨v, rfl⟩, ⟨len, rfl, hlen⟩, by simp⟩).ok h1

/-- Basic tabu search on a whole map with one attribute. -/
def basicRun {k : Nat} (adj : Adj k) (values : Fin k → ℚ) (init : Labels k) (len : Option Nat)
    (reps : Int) (fuel : Nat) (rng : Rng) : Res (List Int) := do
  let (out, _) ← basicComponent
    (Strat.ops (q := 0) (fun _ => 0) (id : Fin k → Fin k) (column values) (pairwise manhattan))
    (pairwise manhattan) (column values) adj len reps fuel init
    (.azp ((pairwise manhattan).call init (column values))) rng
  .ok (arrayList out)

example : basicRun path4 ![0, 1, 2, 3] ![0, 0, 0, 1] (some 1) 5 20 (fun _ => 0) =
    .ok [0, 0, 1, 1] := by decide +kernel

/-- Five areas: a ring of four, and a fifth area next to two neighbouring ones. -/
def house5 : Adj 5 := fun i j => decide ((i.val, j.val) ∈ [(0, 1), (1, 0), (0, 2), (2, 0), (1, 3),
  (3, 1), (1, 4), (4, 1), (2, 4), (4, 2), (3, 4), (4, 3)])

theorem house5_symm : Symmetric house5 := by unfold Spec.Symmetric; decide +kernel

/-- C114 is false for basic tabu search with the default parameters: in the last round two tabu moves
improve the objective; one of them is drawn and made, the loop is left, and the result can still be
improved. -/
theorem c114_basic_not_optimal :
    Feasible house5 (![0, 0, 0, 1, 0] : Labels 5) 2 ∧
    basicRun house5 ![23, 0, 4, 13, 8] ![0, 0, 0, 1, 0] none 5 30 (fun _ => 1) =
      .ok [0, 1, 1, 1, 1] ∧
    ¬ LocalOptimum house5 (fun L => (pairwise manhattan).call L (column ![23, 0, 4, 13, 8]))
      ![0, 1, 1, 1, 1] := by
  refine ⟨⟨((c04_assert_feasible_ok _ house5 none).1 (by decide +kernel)).1, by decide +kernel⟩,
    by decide +kernel, ?_⟩
  rw [localOptimum_iff house5_symm]
  decide +kernel

/-! ### Whole maps -/

/-- C114 (part) for `fit` of the basic tabu search with a tabu list of length 0 or 1: whatever is
returned, for a map with any number of islands and with or without initial labels, no admissible move of
an area that takes part, to a region that takes part, lowers the objective of the map.  Missing: as for
`c114_basic_partial`. -/
theorem c114_fit_partial {n q : Nat} {ρ : Type} (o : MstOrder) (expf : ℚ → ℚ) {metric : ρ → ρ → ℚ}
    (hd : Dissimilarity metric) {adj : Adj n} (hs : Symmetric adj) (attr : Fin n → ρ) (p : Int)
    (initial : Option (Labels n)) (len : Nat) (hlen : len ≤ 1) (reps : Int) (fuel : Nat) (v : ℚ)
    (rng : Rng) {labels : Labels n} {st' : Strat n q} {rng' : Rng}
    (h : basicTabuFit o expf (pairwise metric) fuel (some len) reps adj attr p initial (.azp v) rng =
      .ok (labels, st', rng')) :
    ∀ a r, labels a ≠ -1 → r ≠ -1 → Admissible adj labels a r →
      (pairwise metric).call labels attr ≤ (pairwise metric).call (moved labels a r) attr := by
  have he : (pairwise metric).Exact := pairwise_exact hd.symm hd.zero
  have := fitWith_comp (σ := Strat n q) o (adj := adj) attr
    (comp := fun idx a init at' st rng =>
      basicComponent (Strat.ops expf (fun i => idx.get i) at' (pairwise metric)) (pairwise metric)
        at' a (some len) reps fuel init (st.start ((pairwise metric).call init at')) rng)
    (S := fun st => ∃ v, st = .azp v)
    (Q := fun idx init out => KeepsRegions (subAdj adj idx) init out ∧
      LocalOptimum (subAdj adj idx)
        (fun L => (pairwise metric).call L (fun i => attr (idx.get i))) out) (R := True) (T := True) p
    initial (fun h => absurd trivial h) (by
      rintro idx init _ rng _ _ _ hc ⟨v, rfl⟩
      refine Res.post_partial.2 ?_
      rintro ⟨out, st, rng'⟩ hout
      obtain ⟨h1, h2, h3⟩ := (basicComponent_post expf hd (fun i => idx.get i) hc
        _ (some len) reps fuel True (fun h => absurd trivial h) ⟨_, rfl⟩ rng).ok hout
      exact ⟨⟨h2, c114_basic_partial expf he (fun i => idx.get i) _ (subAdj_symm hs idx) init hc len
        hlen reps fuel _ rng hout⟩, h1⟩) (.azp v) ⟨v, rfl⟩ rng
  obtain ⟨_, lab, h1, hf⟩ := this.ok h
  exact (fitted_localOptimum hd.symm hd.zero attr h1.1 hf).2

example : (match basicTabuFit (q := 0) .rowMajor (fun _ => 0) (pairwise manhattan) 40 (some 1) 5
      islands33 (column ![0, 1, 3, 5, 6, 9]) 4 (some ![0, 0, 1, 2, 3, 3]) (.azp 0) fun _ => 0 with
    | .ok (L, _, _) => arrayList L
    | _ => []) = [0, 0, 1, 2, 2, 3] := by decide +kernel

/-- C26 (part) for `fit`: if no area is, in total, equally dissimilar to two disjoint sets of other
areas, then in whatever AZP returns, for a map with any number of islands and with or without initial
labels, no admissible move of an area that takes part, to a region that takes part, lowers the
objective of the map.  Missing: data with ties (`c26_not_local_optimum`). -/
theorem c26_fit_partial {n q : Nat} {ρ : Type} (o : MstOrder) (expf : ℚ → ℚ) {metric : ρ → ρ → ℚ}
    (hd : Dissimilarity metric) {adj : Adj n} (hs : Symmetric adj) (attr : Fin n → ρ)
    (htie : TieFree fun i j => metric (attr i) (attr j)) (p : Int)
    (initial : Option (Labels n)) (fuel : Nat) (v : ℚ) (rng : Rng) {labels : Labels n}
    {st' : Strat n q} {rng' : Rng}
    (h : azpFit o expf (pairwise metric) fuel adj attr p initial (.azp v) rng =
      .ok (labels, st', rng')) :
    ∀ a r, labels a ≠ -1 → r ≠ -1 → Admissible adj labels a r →
      (pairwise metric).call labels attr ≤ (pairwise metric).call (moved labels a r) attr := by
  have he : (pairwise metric).Exact := pairwise_exact hd.symm hd.zero
  have ht : (pairwise metric).Total := pairwise_total metric
  have := fitWith_comp (σ := Strat n q) o (adj := adj) attr
    (comp := azpComp expf (pairwise metric) fuel)
    (S := fun st => ∃ v, st = .azp v)
    (Q := fun idx init out => KeepsRegions (subAdj adj idx) init out ∧
      LocalOptimum (subAdj adj idx)
        (fun L => (pairwise metric).call L (fun i => attr (idx.get i))) out) (R := True) (T := True) p
    initial (fun h => absurd trivial h) (by
      rintro idx init _ rng hnd _ _ hc ⟨v, rfl⟩
      by_cases hk : 0 < idx.length
      · refine (azp_component (q := q) expf (fun i => idx.get i) he ht (subAdj_symm hs idx) hk hc
          (fun i => attr (idx.get i)) fuel rng).mono (fun _ => trivial) (fun _ => trivial) ?_
        rintro ⟨out, st, rng'⟩ ⟨h1, h2, h3, h4, _⟩
        refine ⟨⟨h2, ?_⟩, _, h1⟩
        rcases h4 with h4 | ⟨L0, h4, h5⟩
        · exact h4
        · exfalso
          obtain ⟨L1, h6, a, r, h7, h8, h9⟩ : ∃ L1, ReflTransGen (GoodMove (subAdj adj idx) fun l =>
              (pairwise metric).call l fun i => attr (idx.get i)) init L1 ∧
              NeutralMove (subAdj adj idx) (fun l => (pairwise metric).call l fun i =>
                attr (idx.get i)) L1 out := by
            cases h5 with
            | single h5 => exact ⟨L0, h4, h5⟩
            | tail h5 h6 =>
              refine ⟨_, h4.trans (rtg_mono ?_ h5.to_reflTransGen), h6⟩
              rintro L L' ⟨a, r, e1, e2, e3⟩
              exact ⟨a, r, e1, e2, e3.le⟩
          have himg : ∀ x, (∃ i, L1 i = x) ↔ ∃ i, init i = x := by
            clear h7 h8 h9
            induction h6 with
            | refl => exact fun _ => Iff.rfl
            | tail _ h ih =>
              obtain ⟨b, s, e1, rfl, _⟩ := h
              exact fun x => (moved_image e1 x).trans (ih x)
          obtain ⟨hne, ⟨u, hu, _⟩, hb, _⟩ := h7
          obtain ⟨d, hd'⟩ := ht a r L1 (fun i => attr (idx.get i)) ⟨u, hu⟩ hb
          have := he _ _ _ _ _ hd'
          dsimp only at h9
          rw [h8, this] at h9
          have hd0 : d = 0 := by linarith
          rw [hd0] at hd'
          exact noTies_of_tieFree hd.zero htie hnd init L1 himg a r hne hd'
      · unfold azpComp
        rw [azpComponent_empty _ _ hk]
        exact trivial) (.azp v) ⟨v, rfl⟩ rng
  obtain ⟨_, lab, h1, hf⟩ := this.ok h
  exact (fitted_localOptimum hd.symm hd.zero attr h1.1 hf).2

example : TieFree (fun i j => manhattan (column ![0, 1, 10, 100] i) (column ![0, 1, 10, 100] j)) ∧
    (match azpFit (q := 0) .rowMajor (fun _ => 0) (pairwise manhattan) 20 path4
        (column ![0, 1, 10, 100]) 2 none (.azp 0) fun _ => 0 with
      | .ok (L, _, _) => arrayList L
      | _ => []) = [0, 0, 0, 1] := by
  unfold TieFree
  decide +kernel

end Region.Props
