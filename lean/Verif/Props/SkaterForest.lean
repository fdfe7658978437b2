import Verif.Lemmas.Mst
import Verif.Props.Skater
/-
Property theorems C98 and C99: the spanning forest of SKATER, and fits with different numbers of clusters.
-/
namespace Region.Props

open Region Spec Skater

set_option synthInstance.maxSize 2000

/-! ### C98: the forest SKATER prunes is a minimum spanning forest -/

/-- How much two areas differ; without data every two areas differ by 1. -/
def unlikeness {n : Nat} (M : SkMetric) (data : Option (Σ m : Nat, Fin n → Row m)) (i j : Fin n) : ℚ :=
  match data, M with
  | none, _ => 1
  | some ⟨m, x⟩, .dissimilarity d => d m (x i) (x j)
  | some ⟨m, x⟩, .affinity a g => g (a m (x i) (x j))

/-- The map on which areas border only where `T` has an edge. -/
def onlyEdges {n : Nat} (T : List (Fin n × Fin n)) : Adj n := fun i j => decide ((i, j) ∈ T)

theorem onlyEdges_eq {n : Nat} (T : List (Fin n × Fin n)) : onlyEdges T = adjOf T := by
  funext i j
  rw [Bool.eq_iff_iff, adjOf_iff]
  simp [onlyEdges]

section
variable (o : WeightOrder) (S : SpanningForest) {n : Nat} (W : Adj n)
  (data : Option (Σ m : Nat, Fin n → Row m))

theorem unlikeness_of_link {i j : Fin n} (h : links S.metric W data i j = true) :
    unlikeness S.metric data i j = dissim W (kernelOf S data) i j := by
  unfold links at h
  simp only [Bool.and_eq_true] at h
  unfold dissim unlikeness kernelOf SkMetric.kernel
  rw [if_pos h.1]
  cases data with
  | none => rfl
  | some x => cases S.metric <;> rfl

theorem mem_order {e : Edge n} :
    e ∈ o.order (dissim W (kernelOf S data)) ↔ links S.metric W data e.1 e.2 = true := by
  rw [(o.perm _).mem_iff]
  show (e.1, e.2) ∈ _ ↔ _
  rw [mem_edgesOf, links_eq]
  unfold dissim active
  cases W e.1 e.2 <;> simp

theorem adjOf_order : adjOf (o.order (dissim W (kernelOf S data))) = links S.metric W data := by
  funext i j
  rw [Bool.eq_iff_iff, adjOf_iff, mem_order]

/-- The total over the forest `fit` starts from. -/
theorem sum_startForest :
    ((startForest o S W data).map fun e => unlikeness S.metric data e.1 e.2).sum =
      ((kruskal (o.order (dissim W (kernelOf S data)))).map fun e =>
        dissim W (kernelOf S data) e.1 e.2).sum := by
  have hp := spanningForest_perm o (dissim W (kernelOf S data))
  rw [(hp.map fun e => dissim W (kernelOf S data) e.1 e.2).sum_eq]
  show ((spanningForest o (dissim W (kernelOf S data))).map _).sum = _
  apply congrArg
  apply List.map_congr_left
  intro e he
  have := (startForest_spec o S W data).2.1 e he
  rw [← links_eq] at this
  exact unlikeness_of_link S W data this

end

section
variable {o : WeightOrder} {S : SpanningForest} {n fuel : Nat} {nClusters : Option Int} {W : Adj n}
  {data : Option (Σ m : Nat, Fin n → Row m)} {quorum : Option ℚ} {trace : Bool} {islands : String}
  {f : Outcome n}

/-- As long as no cut was made the forest is the one `fit` starts from. -/
theorem forest_of_no_cut (h : fit o S fuel nClusters W data quorum trace islands = .ok f)
    {isl : Fin n → Int} (hisl : Separates isl (links S.metric W data))
    (hno : numRegions f.labels = numRegions isl) : f.forest = startForest o S W data := by
  obtain ⟨d, _, hd, _⟩ := fit_ok h
  obtain ⟨st, hst, _⟩ := hd.steps
  obtain ⟨s1, s2, s3, s4⟩ := startForest_spec o S W data
  have h1 := hst.nComponents s1
  rw [links_eq] at hisl
  have h2 : numRegions isl = nComponents (active S W data) := card_image_eq_nComponents _ _ hisl
  rw [hd.labels, numRegions_treeLabels] at hno
  have h3 := isForest_card s1
  have h4 := isForest_card (hst.isForest s1)
  exact hst.sublist.eq_of_length (by omega)

/-- C98: the forest SKATER prunes has the least possible total dissimilarity among all collections of
borders without cycles that link the same areas, for every dissimilarity; and among all collections of
borders that link the same areas, if no dissimilarity is negative. -/
theorem c98_minimum (h : fit o S fuel nClusters W data quorum trace islands = .ok f)
    {isl : Fin n → Int} (hisl : Separates isl (links S.metric W data))
    (hno : numRegions f.labels = numRegions isl)
    {T : List (Fin n × Fin n)} (hT : ∀ e ∈ T, links S.metric W data e.1 e.2 = true)
    (hspan : ∀ a b, SameIsland (links S.metric W data) a b → SameIsland (onlyEdges T) a b)
    (hor : (T.Nodup ∧ ∀ e ∈ T, ¬ SameIsland (onlyEdges (T.erase e)) e.1 e.2) ∨
      ∀ i j, 0 ≤ unlikeness S.metric data i j) :
    (f.forest.map fun e => unlikeness S.metric data e.1 e.2).sum ≤
      (T.map fun e => unlikeness S.metric data e.1 e.2).sum := by
  rw [forest_of_no_cut h hisl hno, sum_startForest]
  have hTs : T ⊆ o.order (dissim W (kernelOf S data)) := fun e he => (mem_order o S W data).2 (hT e he)
  have e1 : (T.map fun e => unlikeness S.metric data e.1 e.2) =
      T.map fun e => dissim W (kernelOf S data) e.1 e.2 :=
    List.map_congr_left fun e he => unlikeness_of_link S W data (hT e he)
  rw [e1]
  simp only [onlyEdges_eq] at hspan hor
  have hspan' : ∀ a b, SameIsland (adjOf (o.order (dissim W (kernelOf S data)))) a b →
      SameIsland (adjOf T) a b := by
    rw [adjOf_order]
    exact hspan
  refine kruskal_minimum (fun e => dissim W (kernelOf S data) e.1 e.2)
    ((o.perm _).nodup_iff.2 (edgesOf_nodup _)) (o.sorted _) hTs hspan' ?_
  rcases hor with hor | hor
  · left
    have h1 := isForest_card (es := T) hor
    have h2 := (kruskal_spec (o.order (dissim W (kernelOf S data)))).2.2.2
    have h3 := nComponents_congr (kruskal_spec (o.order (dissim W (kernelOf S data)))).2.2.1
    have h4 : nComponents (adjOf T) = nComponents (adjOf (o.order (dissim W (kernelOf S data)))) :=
      nComponents_congr fun a b => ⟨sameIsland_mono hTs, hspan' a b⟩
    omega
  · right
    intro e he
    have := (mem_order o S W data).1 he
    show 0 ≤ dissim W (kernelOf S data) e.1 e.2
    rw [← unlikeness_of_link S W data this]
    exact hor _ _

/-- C98: the forest links any two areas by borders that differ as little as possible: whatever can be
linked by borders with dissimilarities up to `t` is linked so in the forest. -/
theorem c98_bottleneck (h : fit o S fuel nClusters W data quorum trace islands = .ok f)
    {isl : Fin n → Int} (hisl : Separates isl (links S.metric W data))
    (hno : numRegions f.labels = numRegions isl) (t : ℚ) (a b : Fin n) :
    SameIsland (onlyEdges (f.forest.filter fun e => decide (unlikeness S.metric data e.1 e.2 ≤ t))) a b ↔
      SameIsland (fun i j => links S.metric W data i j && decide (unlikeness S.metric data i j ≤ t)) a b := by
  rw [forest_of_no_cut h hisl hno, onlyEdges_eq]
  have hp := spanningForest_perm o (dissim W (kernelOf S data))
  have key := kruskal_threshold (fun e => dissim W (kernelOf S data) e.1 e.2) (o.sorted _) t a b
  have e1 : adjOf ((startForest o S W data).filter fun e => decide (unlikeness S.metric data e.1 e.2 ≤ t)) =
      adjOf ((kruskal (o.order (dissim W (kernelOf S data)))).filter fun e =>
        decide (dissim W (kernelOf S data) e.1 e.2 ≤ t)) := by
    apply adjOf_congr
    intro e
    rw [List.mem_filter, List.mem_filter, hp.mem_iff]
    refine and_congr_right fun he => ?_
    have := (startForest_spec o S W data).2.1 e he
    rw [← links_eq] at this
    rw [unlikeness_of_link S W data this]
  have e2 : adjOf ((o.order (dissim W (kernelOf S data))).filter fun e =>
        decide (dissim W (kernelOf S data) e.1 e.2 ≤ t)) =
      fun i j => links S.metric W data i j && decide (unlikeness S.metric data i j ≤ t) := by
    funext i j
    rw [Bool.eq_iff_iff, adjOf_iff, List.mem_filter, mem_order, Bool.and_eq_true]
    refine and_congr_right fun hl => ?_
    rw [unlikeness_of_link S W data hl]
  rw [e1, key, e2]

end

/-- A ring of four areas: the forest leaves out the border between the most different areas. -/
example : (match fit stableOrder .default 5 (some 1) ring4 (four ![0, 1, 3, 6]) none false "increase" with
    | .ok f => (f.forest, (f.forest.map fun e => unlikeness SpanningForest.default.metric
        (four ![0, 1, 3, 6]) e.1 e.2).sum, numRegions f.labels)
    | _ => ([], 0, 0)) = ([(0, 1), (1, 2), (2, 3)], 6, 1) := by decide +kernel

/-- Another spanning tree of the ring, which weighs more; the hypotheses of `c98_minimum`. -/
example : Separates (fun _ => 0 : Fin 4 → Int)
      (links SpanningForest.default.metric ring4 (four ![0, 1, 3, 6])) ∧
    (∀ e ∈ [((0, 1) : Fin 4 × Fin 4), (1, 2), (3, 0)],
      links SpanningForest.default.metric ring4 (four ![0, 1, 3, 6]) e.1 e.2 = true) ∧
    (∀ a b, SameIsland (onlyEdges [((0, 1) : Fin 4 × Fin 4), (1, 2), (3, 0)]) a b) ∧
    IsForest [((0, 1) : Fin 4 × Fin 4), (1, 2), (3, 0)] ∧
    ([((0, 1) : Fin 4 × Fin 4), (1, 2), (3, 0)].map fun e => unlikeness SpanningForest.default.metric
        (four ![0, 1, 3, 6]) e.1 e.2).sum = 9 := by
  refine ⟨?_, by decide +kernel, ?_, isForest_of_card (by decide +kernel), by decide +kernel⟩
  · intro a b
    rw [← compLabels_eq_iff]
    revert a b
    decide +kernel
  · intro a b
    rw [← compLabels_eq_iff]
    revert a b
    decide +kernel

/-! ### C99: asking for more clusters refines the clusters -/

theorem fewer_le {k : Nat} {a b : Option Int} (hab : ∀ x ∈ b, ∃ y ∈ a, y ≤ x)
    (h : fewer k a = true) : fewer k b = true := by
  cases b with
  | none => rfl
  | some x =>
    obtain ⟨y, hy, hyx⟩ := hab x rfl
    cases hy
    simp only [fewer, decide_eq_true_eq] at h ⊢
    omega

/-- The loop only takes edges away. -/
theorem pruneLoop_sublist (S : SpanningForest) {n m : Nat} (data : Fin n → Row m) (quorum : Option ℚ)
    (target : Option Int) (trace : Bool) (fuel : Nat) {msf : List (Edge n)}
    {tr : List ((Fin n → Int) × Deletion n)} {f : Outcome n}
    (h : pruneLoop S data quorum target trace fuel msf tr = .ok f) :
    f.labels = treeLabels f.forest ∧ f.forest.Sublist msf ∧ tr <+: f.trace := by
  induction fuel generalizing msf tr with
  | zero => cases h
  | succ fuel ih =>
    unfold pruneLoop at h
    by_cases hk : fewer (nComponents (adjOf msf)) target = true
    · rw [if_pos hk, Res.bind_eq_ok] at h
      obtain ⟨best, hb, h⟩ := h
      match best, h with
      | none, h => cases h; exact ⟨rfl, .refl _, List.prefix_refl _⟩
      | some (e, s), h =>
        simp only [makeCut, Res.bind_ok] at h
        obtain ⟨h1, h2, h3⟩ := ih h
        refine ⟨h1, h2.trans List.erase_sublist, List.IsPrefix.trans ?_ h3⟩
        split_ifs
        · exact List.prefix_append _ _
        · exact List.prefix_refl _
    · rw [if_neg hk] at h
      cases h
      exact ⟨rfl, .refl _, List.prefix_refl _⟩

theorem pruneLoop_more (S : SpanningForest) {n m : Nat} (data : Fin n → Row m) (quorum : Option ℚ)
    {a b : Option Int} (hab : ∀ x ∈ b, ∃ y ∈ a, y ≤ x) (trace : Bool) (fuel : Nat)
    {msf : List (Edge n)} {tr : List ((Fin n → Int) × Deletion n)} {f g : Outcome n}
    (hf : pruneLoop S data quorum a trace fuel msf tr = .ok f)
    (hg : pruneLoop S data quorum b trace fuel msf tr = .ok g) :
    g.forest.Sublist f.forest ∧ f.trace <+: g.trace := by
  induction fuel generalizing msf tr with
  | zero => cases hf
  | succ fuel ih =>
    have hg' := pruneLoop_sublist S data quorum b trace (fuel + 1) hg
    unfold pruneLoop at hf
    by_cases hk : fewer (nComponents (adjOf msf)) a = true
    · rw [if_pos hk] at hf
      have hkb := fewer_le hab hk
      unfold pruneLoop at hg
      rw [if_pos hkb] at hg
      rw [Res.bind_eq_ok] at hf hg
      obtain ⟨best, hb, hf⟩ := hf
      obtain ⟨best', hb', hg⟩ := hg
      rw [hb] at hb'
      cases hb'
      match best, hf, hg with
      | none, hf, hg => cases hf; cases hg; exact ⟨.refl _, List.prefix_refl _⟩
      | some (e, s), hf, hg =>
        simp only [makeCut, Res.bind_ok] at hf hg
        exact ih hf hg
    · rw [if_neg hk] at hf
      cases hf
      exact ⟨hg'.2.1, hg'.2.2⟩

/-- C99: a fit with more clusters refines the fit with fewer clusters: every cluster of the one lies in a
cluster of the other, its forest is a part of the other forest, and its trace continues the other trace.
`none` stands for as many clusters as possible. -/
theorem c99_refines {o : WeightOrder} {S : SpanningForest} {n fuel : Nat} {a b : Option Int}
    {W : Adj n} {data : Option (Σ m : Nat, Fin n → Row m)} {quorum : Option ℚ} {trace : Bool}
    {islands : String} {f g : Outcome n} (hab : ∀ x ∈ b, ∃ y ∈ a, y ≤ x)
    (hf : fit o S fuel a W data quorum trace islands = .ok f)
    (hg : fit o S fuel b W data quorum trace islands = .ok g) :
    Refines g.labels f.labels ∧ g.forest.Sublist f.forest ∧ f.trace <+: g.trace ∧
      numRegions f.labels ≤ numRegions g.labels := by
  obtain ⟨a1, a2⟩ := fit_pruneLoop o S fuel a W data quorum trace islands
  obtain ⟨b1, b2⟩ := fit_pruneLoop o S fuel b W data quorum trace islands
  by_cases hi : 1 < nComponents (active S W data) ∧
        ¬ ∀ q ∈ quorum, MeetsQuorum (treeLabels (startForest o S W data)) q
  · rw [a1 hi] at hf; cases hf
  · rw [a2 hi] at hf
    rw [b2 hi] at hg
    have haim : ∀ x ∈ aim b islands (nComponents (active S W data)),
        ∃ y ∈ aim a islands (nComponents (active S W data)), y ≤ x := by
      intro x hx
      unfold aim at hx ⊢
      split_ifs at hx ⊢ with hc
      · cases b with
        | none => cases hx
        | some x0 =>
          obtain ⟨y, hy, hyx⟩ := hab x0 rfl
          cases hy
          cases hx
          exact ⟨_, rfl, by simpa using hyx⟩
      · exact hab x hx
    obtain ⟨h1, h2⟩ := pruneLoop_more S _ quorum haim trace fuel hf hg
    have lf := (pruneLoop_sublist S _ quorum _ trace fuel hf).1
    have lg := (pruneLoop_sublist S _ quorum _ trace fuel hg).1
    refine ⟨?_, h1, h2, ?_⟩
    · intro u v huv
      rw [lg, treeLabels_eq_iff] at huv
      rw [lf, treeLabels_eq_iff]
      exact sameIsland_mono h1.subset huv
    · rw [lf, lg, numRegions_treeLabels, numRegions_treeLabels]
      exact nComponents_anti h1.subset

/-- C99: with a dissimilarity both fits return as soon as one does. -/
theorem c99_returns {o : WeightOrder} {S : SpanningForest} {d : Metric}
    (hS : S.metric = .dissimilarity d) {n fuel : Nat} (hfuel : n < fuel) {a : Option Int}
    {W : Adj n} {data : Option (Σ m : Nat, Fin n → Row m)} {quorum : Option ℚ} {trace : Bool}
    {islands : String} {f : Outcome n}
    (hf : fit o S fuel a W data quorum trace islands = .ok f) (b : Option Int) :
    ∃ g, fit o S fuel b W data quorum trace islands = .ok g := by
  obtain ⟨a1, -⟩ := fit_pruneLoop o S fuel a W data quorum trace islands
  cases hg : fit o S fuel b W data quorum trace islands with
  | ok g => exact ⟨g, rfl⟩
  | timeout => exact absurd hg (fit_not_timeout o S fuel b W data quorum trace islands hfuel)
  | raise x =>
    rcases fit_raise hg with ⟨-, hi⟩ | ⟨-, a', g', hm⟩
    · rw [a1 hi] at hf; cases hf
    · rw [hS] at hm; cases hm

/-- Two and three clusters. -/
example : (seen (fit stableOrder .default 5 (some 2) path4 (four ![0, 1, 10, 12]) none false "increase"),
    seen (fit stableOrder .default 5 (some 3) path4 (four ![0, 1, 10, 12]) none false "increase")) =
    (.ok ([0, 0, 1, 1], [(0, 1), (2, 3)], []), .ok ([0, 0, 1, 2], [(0, 1)], [])) := by decide +kernel

end Region.Props
