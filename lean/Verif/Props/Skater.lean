import Mathlib.Data.List.Sort
import Verif.Lemmas.Skater
import Verif.Props.AzpTabu
/-
Property theorems C59-C66 and C73-C76: SKATER.
-/
namespace Region.Props

open Region Spec Skater

set_option synthInstance.maxSize 2000

/-- The borders of the map that count: those between areas whose dissimilarity is not zero. -/
def links {n : Nat} (M : SkMetric) (W : Adj n) (data : Option (Σ m : Nat, Fin n → Row m)) : Adj n :=
  fun i j => W i j && match data, M with
    | none, _ => true
    | some ⟨m, x⟩, .dissimilarity d => decide (d m (x i) (x j) ≠ 0)
    | some ⟨m, x⟩, .affinity a g => decide (g (a m (x i) (x j)) ≠ 0)

theorem links_eq (S : SpanningForest) {n : Nat} (W : Adj n)
    (data : Option (Σ m : Nat, Fin n → Row m)) : links S.metric W data = active S W data := by
  funext i j
  unfold links active kernelOf SkMetric.kernel
  cases data with
  | none => simp
  | some x => cases S.metric <;> rfl

/-- The number of clusters aimed at, on a map with `k` islands. -/
def wanted (nClusters : Option Int) (islands : String) (k : Nat) : Option Int :=
  if 1 < k ∧ islands.toLower ≠ "ignore" then nClusters.map (· + (k : Int)) else nClusters

/-! Maps and an order of the edges for the examples. -/

/-- Sorting the entries by weight. -/
def stableOrder : WeightOrder where
  order := fun {n} w =>
    (edgesOf (n := n) fun i j => decide (w i j ≠ 0)).insertionSort fun e f => w e.1 e.2 ≤ w f.1 f.2
  perm := fun w => List.perm_insertionSort _ _
  sorted := fun {n} w => by
    have : Std.Total (fun e f : Edge n => w e.1 e.2 ≤ w f.1 f.2) := ⟨fun _ _ => le_total _ _⟩
    have : IsTrans (Edge n) (fun e f => w e.1 e.2 ≤ w f.1 f.2) := ⟨fun _ _ _ => le_trans⟩
    exact List.pairwise_insertionSort _ _

/-- One attribute on four areas. -/
def four (v : Fin 4 → ℚ) : Option (Σ m : Nat, Fin 4 → Row m) := some ⟨1, column v⟩

/-- The result of a call in a form that can be compared. -/
def seen {n : Nat} : Res (Outcome n) → Res (List Int × List (Edge n) × List (List Int × Deletion n))
  | .ok f => .ok (arrayList f.labels, f.forest, f.trace.map fun p => (arrayList p.1, p.2))
  | .raise e => .raise e
  | .timeout => .timeout

example : seen (fit stableOrder .default 5 (some 2) path4 (four ![0, 1, 10, 12]) none true "increase") =
    .ok ([0, 0, 1, 1], [(0, 1), (2, 3)], [([0, 0, 0, 0], none), ([0, 0, 1, 1], some ((1, 2), 3))]) := by
  decide +kernel

/-! ### C59 -/

/-- C59: every cluster `fit` returns is contiguous on the map; even more, one can walk between any
two of its areas over borders between areas that differ. -/
theorem c59_contiguous {o : WeightOrder} {S : SpanningForest} {n fuel : Nat}
    {nClusters : Option Int} {W : Adj n} {data : Option (Σ m : Nat, Fin n → Row m)}
    {quorum : Option ℚ} {trace : Bool} {islands : String} {f : Outcome n}
    (h : fit o S fuel nClusters W data quorum trace islands = .ok f) :
    AllContiguous W f.labels ∧ AllContiguous (links S.metric W data) f.labels := by
  obtain ⟨d, _, hd, _⟩ := fit_ok h
  obtain ⟨st, hst, _⟩ := hd.steps
  have hsub : ∀ e ∈ f.forest, links S.metric W data e.1 e.2 = true := by
    intro e he
    rw [links_eq]
    exact (startForest_spec o S W data).2.1 e (hst.sublist.subset he)
  rw [hd.labels]
  refine ⟨contiguous_of_separates (fun e he => ?_) (treeLabels_eq_iff _),
    contiguous_of_separates hsub (treeLabels_eq_iff _)⟩
  have := hsub e he
  unfold links at this
  rw [Bool.and_eq_true] at this
  exact this.1

/-! ### C60 -/

/-- C60: let `isl` number the islands formed by the borders that count, and let the wanted number
of clusters be `nClusters`, or with several islands and unless they are ignored `nClusters` plus their
number.  Then `fit` ends with the wanted number of clusters; or with the islands, if there are as many
or more; or with fewer, but then without any cut that meets the quorum.  In particular it ends with more
than wanted only if it makes no cut at all. -/
theorem c60_number {o : WeightOrder} {S : SpanningForest} {n fuel : Nat}
    {nClusters : Option Int} {W : Adj n} {data : Option (Σ m : Nat, Fin n → Row m)}
    {quorum : Option ℚ} {trace : Bool} {islands : String} {f : Outcome n}
    (h : fit o S fuel nClusters W data quorum trace islands = .ok f)
    {isl : Fin n → Int} (hisl : Separates isl (links S.metric W data)) :
    Separates f.labels (adjOf f.forest) ∧ IsForest f.forest ∧
    Refines f.labels isl ∧
    (wanted nClusters islands (numRegions isl) = some (numRegions f.labels : Int) ∨
      (Refines isl f.labels ∧
        ∃ t ∈ wanted nClusters islands (numRegions isl), t ≤ (numRegions f.labels : Int)) ∨
      ((∀ t ∈ wanted nClusters islands (numRegions isl), (numRegions f.labels : Int) < t) ∧
        ∀ e ∈ f.forest, ∀ lab : Fin n → Int, Separates lab (adjOf (f.forest.erase e)) →
          ∃ q ∈ quorum, ¬ MeetsQuorum lab q)) := by
  obtain ⟨d, _, hd, _⟩ := fit_ok h
  obtain ⟨st, hst, _⟩ := hd.steps
  obtain ⟨s1, s2, s3, s4⟩ := startForest_spec o S W data
  rw [links_eq] at hisl
  have hk : numRegions isl = nComponents (active S W data) := card_image_eq_nComponents _ _ hisl
  have hw : wanted nClusters islands (numRegions isl) =
      aim nClusters islands (nComponents (active S W data)) := by
    rw [hk]; rfl
  have hsep : Separates f.labels (adjOf f.forest) := by
    rw [hd.labels]; exact treeLabels_separates _
  have hnum : numRegions f.labels = nComponents (adjOf f.forest) := by
    rw [hd.labels]; exact numRegions_treeLabels _
  refine ⟨hsep, hst.isForest s1, ?_, ?_⟩
  · intro a b hab
    rw [hsep] at hab
    rw [hisl, ← s3]
    exact sameIsland_mono hst.sublist.subset hab
  · rw [hw, hnum]
    by_cases hfew : fewer (nComponents (adjOf f.forest))
        (aim nClusters islands (nComponents (active S W data))) = true
    · right; right
      constructor
      · intro t ht
        rw [Option.mem_def] at ht
        rw [ht] at hfew
        simpa [fewer] using hfew
      · intro e he lab hlab
        have := hd.enough hfew e he
        unfold ValidCut at this
        push Not at this
        obtain ⟨q, hq, hm⟩ := this
        refine ⟨q, hq, fun hm' => hm ?_⟩
        exact (meetsQuorum_congr (separates_congr hlab (treeLabels_separates _))).1 hm'
    · cases ht : aim nClusters islands (nComponents (active S W data)) with
      | none => rw [ht] at hfew; exact absurd rfl hfew
      | some t =>
        rw [ht] at hfew
        have hle : t ≤ (nComponents (adjOf f.forest) : Int) := by
          simpa [fewer] using hfew
        rcases hd.notMore with h1 | h1
        · right; left
          refine ⟨?_, t, rfl, hle⟩
          intro a b hab
          rw [hisl, ← s3, ← h1] at hab
          exact (hsep a b).2 hab
        · left
          rw [ht] at h1
          simp only [fewer, decide_eq_true_eq] at h1
          congr 1
          have hpos : 0 < nComponents (adjOf f.forest) ∨ nComponents (adjOf f.forest) = 0 := by omega
          rcases hpos with hpos | hpos
          · omega
          · rw [hpos] at h1 hle
            simp only [Nat.zero_sub, Nat.cast_zero] at h1 hle
            omega

/-- C60, termination: `fit` ends, also for `n_clusters=np.inf`. -/
theorem c60_terminates (o : WeightOrder) (S : SpanningForest) {n : Nat} (fuel : Nat)
    (nClusters : Option Int) (W : Adj n) (data : Option (Σ m : Nat, Fin n → Row m))
    (quorum : Option ℚ) (trace : Bool) (islands : String) (hfuel : n < fuel) :
    fit o S fuel nClusters W data quorum trace islands ≠ .timeout :=
  fit_not_timeout o S fuel nClusters W data quorum trace islands hfuel

/-- C60, errors: `fit` never complains about a malformed forest.  It raises a `ValueError` if there
are several islands one of which is smaller than the quorum, and a `TypeError` in case of an affinity
(see C66), but nothing else. -/
theorem c60_errors {o : WeightOrder} {S : SpanningForest} {n fuel : Nat}
    {nClusters : Option Int} {W : Adj n} {data : Option (Σ m : Nat, Fin n → Row m)}
    {quorum : Option ℚ} {trace : Bool} {islands : String} {x : Exc}
    (h : fit o S fuel nClusters W data quorum trace islands = .raise x)
    {isl : Fin n → Int} (hisl : Separates isl (links S.metric W data)) :
    (x = .valueError "Islands must be larger than the quorum." ∧ 1 < numRegions isl ∧
      ∃ q ∈ quorum, ¬ MeetsQuorum isl q) ∨
    (x = .typeError ∧ ∃ a g, S.metric = .affinity a g) := by
  rw [links_eq] at hisl
  have hk : numRegions isl = nComponents (active S W data) := card_image_eq_nComponents _ _ hisl
  rcases fit_raise h with ⟨h1, h2, h3⟩ | h1
  · left
    push Not at h3
    obtain ⟨q, hq, hm⟩ := h3
    refine ⟨h1, by rw [hk]; exact h2, q, hq, fun hm' => hm ?_⟩
    refine (meetsQuorum_congr (fun a b => ?_)).1 hm'
    rw [hisl, treeLabels_eq_iff]
    exact ((startForest_spec o S W data).2.2.1 a b).symm
  · exact Or.inr h1

/-- Conversely an island below the quorum is always reported. -/
theorem c60_small_island (o : WeightOrder) (S : SpanningForest) {n : Nat} (fuel : Nat)
    (nClusters : Option Int) (W : Adj n) (data : Option (Σ m : Nat, Fin n → Row m))
    {quorum : Option ℚ} (trace : Bool) (islands : String)
    {isl : Fin n → Int} (hisl : Separates isl (links S.metric W data)) (h1 : 1 < numRegions isl)
    (hq : ∃ q ∈ quorum, ¬ MeetsQuorum isl q) :
    fit o S fuel nClusters W data quorum trace islands =
      .raise (.valueError "Islands must be larger than the quorum.") := by
  rw [links_eq] at hisl
  have hk : numRegions isl = nComponents (active S W data) := card_image_eq_nComponents _ _ hisl
  apply (fit_pruneLoop o S fuel nClusters W data quorum trace islands).1
  refine ⟨by rw [← hk]; exact h1, ?_⟩
  obtain ⟨q, hq, hm⟩ := hq
  intro hall
  refine hm ((meetsQuorum_congr (fun a b => ?_)).1 (hall q hq))
  rw [hisl, treeLabels_eq_iff]
  exact (startForest_spec o S W data).2.2.1 a b

/-- With two clusters wanted and a quorum of three, no cut of the path of four areas is valid. -/
example : seen (fit stableOrder .default 5 (some 2) path4 (four ![0, 1, 10, 12]) (some 3) false "ignore") =
    .ok ([0, 0, 0, 0], [(0, 1), (1, 2), (2, 3)], []) ∧
    seen (fit stableOrder .default 5 none path4 (four ![0, 1, 10, 12]) none false "ignore") =
    .ok ([0, 1, 2, 3], [], []) ∧
    seen (fit stableOrder .default 5 (some 2) islands4 none (some 3) false "ignore") =
    .raise (.valueError "Islands must be larger than the quorum.") := by decide +kernel

/-! ### C61 -/

/-- C61, what holds: the clusters meet the quorum except in one case: the map consists of a single
island which itself is smaller than the quorum. -/
theorem c61_quorum_partial {o : WeightOrder} {S : SpanningForest} {n fuel : Nat}
    {nClusters : Option Int} {W : Adj n} {data : Option (Σ m : Nat, Fin n → Row m)}
    {quorum : Option ℚ} {trace : Bool} {islands : String} {f : Outcome n}
    (h : fit o S fuel nClusters W data quorum trace islands = .ok f) :
    (∀ q ∈ quorum, MeetsQuorum f.labels q) ↔
      ¬ (Connected (links S.metric W data) ∧ ∃ q ∈ quorum, (n : ℚ) < q) := by
  obtain ⟨d, _, hd, hk⟩ := fit_ok h
  obtain ⟨st, hst, _⟩ := hd.steps
  have hconn : Connected (links S.metric W data) ↔ nComponents (active S W data) = 1 := by
    rw [links_eq, nComponents_eq_one_iff]
  rw [hconn]
  have hcard : ∀ (lab : Fin n → Int) v, (Finset.univ.filter fun u => lab u = lab v).card ≤ n := by
    intro lab v
    have := Finset.card_filter_le (Finset.univ : Finset (Fin n)) fun u => lab u = lab v
    simpa using this
  constructor
  · rintro hm ⟨h1, q, hq, hlt⟩
    have hn : 0 < n := by
      have := startForest_length o S W data
      omega
    have := hm q hq ⟨0, hn⟩
    have h2 : (((Finset.univ.filter fun u => f.labels u = f.labels ⟨0, hn⟩).card : Nat) : ℚ) ≤ n := by
      exact_mod_cast hcard _ _
    linarith
  · intro hne
    rw [hd.labels]
    apply hst.meets
    right
    rcases Nat.lt_or_ge 1 (nComponents (active S W data)) with h1 | h1
    · exact hk h1
    · intro q hq v
      have hn := Fin.pos v
      have hpos : nComponents (active S W data) = 1 := by
        have h2 := compLabels_lt (active S W data) v
        omega
      have hq' : q ≤ (n : ℚ) := by
        by_contra hlt
        exact hne ⟨hpos, q, hq, not_le.1 hlt⟩
      have : (Finset.univ.filter fun u => treeLabels (startForest o S W data) u =
          treeLabels (startForest o S W data) v) = Finset.univ := by
        apply Finset.filter_true_of_mem
        intro u _
        rw [treeLabels_eq_iff, (startForest_spec o S W data).2.2.1]
        exact ((nComponents_eq_one_iff _).1 hpos).2 u v
      rw [this]
      simpa using hq'

/-- C61 is false: a connected map of four areas with a quorum of five is returned as a cluster of four
areas, without an error. -/
theorem c61_small_map : ∃ f, fit stableOrder .default 5 (some 2) path4 (four ![0, 1, 10, 12])
    (some 5) false "increase" = .ok f ∧ ¬ MeetsQuorum f.labels 5 := by
  have h : seen (fit stableOrder .default 5 (some 2) path4 (four ![0, 1, 10, 12])
    (some 5) false "increase") = .ok ([0, 0, 0, 0], [(0, 1), (1, 2), (2, 3)], []) := by decide +kernel
  cases hf : fit stableOrder .default 5 (some 2) path4 (four ![0, 1, 10, 12]) (some 5) false "increase" with
  | ok f =>
    refine ⟨f, rfl, fun hm => ?_⟩
    have h1 := (c61_quorum_partial hf).1 (by simpa using hm)
    refine h1 ⟨(nComponents_eq_one_iff _).1 (by decide +kernel), 5, rfl, by norm_num⟩
  | raise e => rw [hf] at h; cases h
  | timeout => rw [hf] at h; cases h

/-- Here the quorum is met. -/
example : seen (fit stableOrder .default 5 (some 3) path4 (four ![0, 1, 10, 12]) (some 2) false "ignore") =
    .ok ([0, 0, 1, 1], [(0, 1), (2, 3)], []) ∧
    ¬ (Connected (links (.dissimilarity fun _ => manhattan) path4 (four ![0, 1, 10, 12])) ∧
      ∃ q ∈ (some 2 : Option ℚ), ((4 : Nat) : ℚ) < q) := by
  refine ⟨by decide +kernel, ?_⟩
  rintro ⟨_, q, hq, hlt⟩
  cases hq
  norm_num at hlt

/-! ### C62 -/

/-- C62: the trace begins with the islands, ends with the clusters returned, and each labelling in
it arises from the one before by splitting exactly one cluster in two. -/
theorem c62_trace {o : WeightOrder} {S : SpanningForest} {n fuel : Nat}
    {nClusters : Option Int} {W : Adj n} {data : Option (Σ m : Nat, Fin n → Row m)}
    {quorum : Option ℚ} {islands : String} {f : Outcome n}
    (h : fit o S fuel nClusters W data quorum true islands = .ok f) :
    f.trace.IsChain (fun x y => SplitsOne y.1 x.1 ∧ numRegions y.1 = numRegions x.1 + 1) ∧
    (∃ first ∈ f.trace.head?, Separates first.1 (links S.metric W data) ∧ first.2 = none) ∧
    (∃ last ∈ f.trace.getLast?, last.1 = f.labels) := by
  obtain ⟨d, _, hd, _⟩ := fit_ok h
  obtain ⟨st, hst, htr⟩ := hd.steps
  obtain ⟨s1, s2, s3, s4⟩ := startForest_spec o S W data
  simp only [if_true, List.singleton_append] at htr
  obtain ⟨h1, h2⟩ := hst.isChain s1 none
  rw [htr]
  refine ⟨h1, ⟨_, rfl, ?_, rfl⟩, ⟨_, List.getLast?_eq_getLast_of_ne_nil (by simp), ?_⟩⟩
  · intro a b
    rw [links_eq, treeLabels_eq_iff, s3]
  · rw [h2, hd.labels]

/-- Without `trace=True` nothing is recorded. -/
theorem c62_no_trace {o : WeightOrder} {S : SpanningForest} {n fuel : Nat}
    {nClusters : Option Int} {W : Adj n} {data : Option (Σ m : Nat, Fin n → Row m)}
    {quorum : Option ℚ} {islands : String} {f : Outcome n}
    (h : fit o S fuel nClusters W data quorum false islands = .ok f) : f.trace = [] := by
  obtain ⟨d, _, hd, _⟩ := fit_ok h
  obtain ⟨st, _, htr⟩ := hd.steps
  simpa using htr

/-- A trace with two cuts. -/
example : seen (fit stableOrder .default 5 (some 3) path4 (four ![0, 1, 10, 12]) none true "increase") =
    .ok ([0, 0, 1, 2], [(0, 1)], [([0, 0, 0, 0], none), ([0, 0, 1, 1], some ((1, 2), 3)),
      ([0, 0, 1, 2], some ((2, 3), 1))]) := by decide +kernel

/-! ### C63 -/

/-- The sum, over the areas of a cluster, of the distance to the centre of the cluster. -/
def spread (d : Metric) (center : (m : Nat) → List (Row m) → Row m) {n m : Nat}
    (data : Fin n → Row m) (C : Finset (Fin n)) : ℚ :=
  ∑ u ∈ C, d m (data u) (center m ((C.sort (· ≤ ·)).map data))

/-- C63: on every forest `find_cut` answers without an error.  If it finds a cut, then this is an
edge of the forest whose removal meets the quorum, the score reported is the one of the remaining trees,
and no removal meeting the quorum has a smaller score (nor an equal one, if it comes earlier).  If it finds
none, then no removal meets the quorum. -/
theorem c63_best_cut {d : Metric} {S : SpanningForest} (hS : S.metric = .dissimilarity d) {n m : Nat}
    {msf : List (Edge n)} (hf : IsForest msf) (data : Fin n → Row m) (quorum : Option ℚ) :
    ∃ best, findCut S msf data quorum none none = .ok best ∧
      (∀ e s, best = some (e, s) →
        (∀ q ∈ quorum, MeetsQuorum (treeLabels (msf.erase e)) q) ∧
        score S data (treeLabels (msf.erase e)) none = .ok (some s) ∧
        ∃ pre post, msf = pre ++ e :: post ∧
          ∀ e' ∈ msf, (∀ q ∈ quorum, MeetsQuorum (treeLabels (msf.erase e')) q) →
            ∃ s', score S data (treeLabels (msf.erase e')) none = .ok (some s') ∧ s ≤ s' ∧
              (e' ∈ pre → s < s')) ∧
      (best = none → ∀ e ∈ msf, ∃ q ∈ quorum, ¬ MeetsQuorum (treeLabels (msf.erase e)) q) := by
  obtain ⟨best, h1, h2⟩ := findCut_dissimilarity hS hf data quorum
  have hsc : ∀ e, score S data (treeLabels (msf.erase e)) none =
      .ok (some (cutScore d S data msf e)) := by
    intro e
    classical
    rw [score_dissimilarity hS data _ (treeLabels_consecutive _) none, if_pos (by simp)]
    rfl
  refine ⟨best, h1, ?_, ?_⟩
  · rintro e s rfl
    obtain ⟨g1, _, g3, pre, post, g4, g5, g6⟩ := h2
    refine ⟨g1, by rw [hsc, g3], pre, post, g4, ?_⟩
    intro e' he' hv
    refine ⟨_, hsc e', ?_, fun hp => g5 e' hp (fun _ hz => by cases hz) hv⟩
    rw [g4] at he'
    rcases List.mem_append.1 he' with h | h
    · exact (g5 e' h (fun _ hz => by cases hz) hv).le
    · rcases List.mem_cons.1 h with h | h
      · rw [h, g3]
      · exact g6 e' h (fun _ hz => by cases hz) hv
  · rintro rfl e he
    have := h2 e he (fun _ hz => by cases hz)
    unfold ValidCut at this
    push Not at this
    exact this

/-- C63 in terms of the clusters alone, for scores that are sums: the score of the cut found is the sum
over the clusters of the distances to the centre, and no cut that meets the quorum has a smaller one. -/
theorem c63_sum {d : Metric} {S : SpanningForest} (hS : S.metric = .dissimilarity d)
    (hr : S.reduction = List.sum) {n m : Nat} {msf : List (Edge n)} (hf : IsForest msf)
    {data : Fin n → Row m} {quorum : Option ℚ} {e : Edge n} {s : ℚ}
    (h : findCut S msf data quorum none none = .ok (some (e, s)))
    (lab : Edge n → Fin n → Int) (hlab : ∀ e' ∈ msf, Separates (lab e') (adjOf (msf.erase e'))) :
    e ∈ msf ∧ (∀ q ∈ quorum, MeetsQuorum (lab e) q) ∧
      s = sumOverRegions (lab e) (spread d S.center data) ∧
      ∀ e' ∈ msf, (∀ q ∈ quorum, MeetsQuorum (lab e') q) →
        s ≤ sumOverRegions (lab e') (spread d S.center data) := by
  obtain ⟨best, h1, h2⟩ := findCut_dissimilarity hS hf data quorum
  rw [h] at h1
  cases h1
  have hsc : ∀ e' ∈ msf, cutScore d S data msf e' =
      sumOverRegions (lab e') (spread d S.center data) := by
    intro e' he'
    unfold cutScore
    rw [mapScore_sum d hr data (treeLabels_consecutive _), sumOverRegions_sum
      (treeLabels (msf.erase e')) fun C u => d m (data u) (S.center m ((C.sort (· ≤ ·)).map data))]
    unfold spread
    rw [sumOverRegions_sum (lab e') fun C u => d m (data u) (S.center m ((C.sort (· ≤ ·)).map data))]
    have hcls : ∀ u, (Finset.univ.filter fun v => treeLabels (msf.erase e') v =
        treeLabels (msf.erase e') u) = Finset.univ.filter fun v => lab e' v = lab e' u := by
      intro u
      ext v
      simp only [Finset.mem_filter, Finset.mem_univ, true_and]
      exact separates_congr (treeLabels_separates _) (hlab e' he') v u
    simp only [hcls]
  have hq : ∀ e' ∈ msf, (∀ q ∈ quorum, MeetsQuorum (lab e') q) ↔ ValidCut quorum msf e' := by
    intro e' he'
    unfold ValidCut
    constructor <;> intro hq q hq'
    · exact (meetsQuorum_congr (separates_congr (hlab e' he') (treeLabels_separates _))).1 (hq q hq')
    · exact (meetsQuorum_congr (separates_congr (hlab e' he') (treeLabels_separates _))).2 (hq q hq')
  have he : e ∈ msf := h2.mem
  obtain ⟨g1, _, g3, pre, post, g4, g5, g6⟩ := h2
  refine ⟨he, (hq e he).2 g1, by rw [g3, hsc e he], ?_⟩
  intro e' he' hv
  rw [hq e' he'] at hv
  rw [← hsc e' he']
  rw [g4] at he'
  rcases List.mem_append.1 he' with h | h
  · exact (g5 e' h (fun _ hz => by cases hz) hv).le
  · rcases List.mem_cons.1 h with h | h
    · rw [h, g3]
    · exact g6 e' h (fun _ hz => by cases hz) hv

theorem path4_forest : IsForest ([(0, 1), (1, 2), (2, 3)] : List (Edge 4)) :=
  isForest_of_card (by decide +kernel)

example : IsForest ([(0, 1), (1, 2), (2, 3)] : List (Edge 4)) ∧
    findCut .default [(0, 1), (1, 2), (2, 3)] (column (k := 4) ![0, 1, 10, 12]) (some 2) none none =
      .ok (some ((1, 2), 3)) ∧
    findCut .default [(0, 1), (1, 2), (2, 3)] (column (k := 4) ![0, 1, 10, 12]) (some 3) none none =
      .ok none := ⟨path4_forest, by decide +kernel⟩

/-! ### C64 -/

/-- C64, what holds: if the dissimilarity of no two neighbouring areas is zero, `fit` starts from the
islands of the map. -/
theorem c64_start_partial {o : WeightOrder} {d : Metric} {S : SpanningForest}
    (hS : S.metric = .dissimilarity d) {n m fuel : Nat} {nClusters : Option Int} {W : Adj n}
    {data : Fin n → Row m} {quorum : Option ℚ} {islands : String} {f : Outcome n}
    (h : fit o S fuel nClusters W (some ⟨m, data⟩) quorum true islands = .ok f)
    (hd : ∀ i j, W i j = true → d m (data i) (data j) ≠ 0) :
    ∃ first ∈ f.trace.head?, Separates first.1 W := by
  obtain ⟨_, ⟨first, h1, h2, _⟩, _⟩ := c62_trace h
  refine ⟨first, h1, ?_⟩
  have : links S.metric W (some ⟨m, data⟩) = W := by
    funext i j
    unfold links
    rw [hS]
    cases hW : W i j with
    | false => rfl
    | true => simp [hd i j hW]
  rwa [this] at h2

/-- Without data every border counts. -/
theorem c64_no_data {o : WeightOrder} {S : SpanningForest} {n fuel : Nat} {nClusters : Option Int}
    {W : Adj n} {quorum : Option ℚ} {islands : String} {f : Outcome n}
    (h : fit o S fuel nClusters W none quorum true islands = .ok f) :
    ∃ first ∈ f.trace.head?, Separates first.1 W := by
  obtain ⟨_, ⟨first, h1, h2, _⟩, _⟩ := c62_trace h
  refine ⟨first, h1, ?_⟩
  have : links S.metric W none = W := by
    funext i j
    unfold links
    simp
  rwa [this] at h2

/-- C64 is false: two neighbouring areas with the same data are put into different clusters before any
cut is made.  On the path of four areas with data 5, 5, 7, 9 a single cluster is wanted; the two areas with
data 5 are separated. -/
theorem c64_identical_neighbours : Connected path4 ∧
    seen (fit stableOrder .default 5 (some 1) path4 (four ![5, 5, 7, 9]) none true "ignore") =
      .ok ([0, 1, 1, 1], [(1, 2), (2, 3)], [([0, 1, 1, 1], none)]) ∧
    seen (fit stableOrder .default 5 (some 1) path4 (four ![5, 5, 7, 9]) none false "increase") =
      .ok ([0, 1, 2, 2], [(2, 3)], []) :=
  ⟨(nComponents_eq_one_iff _).1 (by decide +kernel), by decide +kernel⟩

/-- C64 is false in general: if all neighbouring areas are alike, `fit` returns every area as a cluster of
its own, no matter how few clusters are wanted. -/
theorem c64_all_alike {o : WeightOrder} {d : Metric} {S : SpanningForest}
    (hS : S.metric = .dissimilarity d) {n m fuel : Nat} {nClusters : Option Int} {W : Adj n}
    {data : Fin n → Row m} {quorum : Option ℚ} {trace : Bool} {islands : String} {f : Outcome n}
    (h : fit o S fuel nClusters W (some ⟨m, data⟩) quorum trace islands = .ok f)
    (hd : ∀ i j, W i j = true → d m (data i) (data j) = 0) : Function.Injective f.labels := by
  intro a b hab
  have hl : Separates (compLabels (links S.metric W (some ⟨m, data⟩)))
      (links S.metric W (some ⟨m, data⟩)) := fun a b => compLabels_eq_iff _ a b
  have h1 := (c60_number h (isl := fun a => (compLabels (links S.metric W (some ⟨m, data⟩)) a : Int))
    (fun a b => by rw [Int.natCast_inj]; exact hl a b)).2.2.1 a b hab
  rw [Int.natCast_inj, hl] at h1
  have hno : ∀ i j, links S.metric W (some ⟨m, data⟩) i j = false := by
    intro i j
    unfold links
    rw [hS]
    cases hW : W i j with
    | false => rfl
    | true => simp [hd i j hW]
  rcases Relation.ReflTransGen.cases_head h1 with h2 | ⟨c, h2, _⟩
  · exact h2
  · unfold Borders at h2
    simp [hno] at h2

example : seen (fit stableOrder .default 5 (some 1) path4 (four ![5, 5, 5, 5]) none false "ignore") =
    .ok ([0, 1, 2, 3], [], []) ∧
    seen (fit stableOrder .default 5 (some 1) path4 (four ![5, 6, 7, 9]) none true "ignore") =
    .ok ([0, 0, 0, 0], [(0, 1), (1, 2), (2, 3)], [([0, 0, 0, 0], none)]) := by decide +kernel

/-! ### C65 -/

/-- C65, what holds: without a quorum the number of clusters is `n_clusters` on a single island or with
`islands='ignore'`, and `n_clusters` plus the number of islands otherwise, except that it is never less
than the number of islands and never more than the number of areas. -/
theorem c65_number_partial {o : WeightOrder} {S : SpanningForest} {n fuel : Nat} {t : Int}
    {W : Adj n} {data : Option (Σ m : Nat, Fin n → Row m)} {trace : Bool} {islands : String}
    {f : Outcome n} (h : fit o S fuel (some t) W data none trace islands = .ok f)
    {isl : Fin n → Int} (hisl : Separates isl (links S.metric W data)) :
    (numRegions f.labels : Int) = max (numRegions isl : Int) (min (n : Int)
      (if 1 < numRegions isl ∧ islands.toLower ≠ "ignore" then t + (numRegions isl : Int) else t)) := by
  obtain ⟨h1, h2, h3, h4⟩ := c60_number h hisl
  have hw : wanted (some t) islands (numRegions isl) =
      some (if 1 < numRegions isl ∧ islands.toLower ≠ "ignore" then t + (numRegions isl : Int) else t) := by
    unfold wanted
    split_ifs <;> rfl
  rw [hw] at h4
  generalize (if 1 < numRegions isl ∧ islands.toLower ≠ "ignore" then t + (numRegions isl : Int)
    else t) = t' at *
  have hcardle : ∀ lab : Fin n → Int, numRegions lab ≤ n := by
    intro lab
    have := Finset.card_image_le (s := Finset.univ) (f := lab)
    simpa [numRegions] using this
  have hge : numRegions isl ≤ numRegions f.labels := by
    have hmap : Finset.univ.image isl ⊆ (Finset.univ.image f.labels).image
        (fun x => if hx : ∃ v, f.labels v = x then isl hx.choose else 0) := by
      intro y hy
      obtain ⟨v, _, rfl⟩ := Finset.mem_image.1 hy
      refine Finset.mem_image.2 ⟨f.labels v, Finset.mem_image_of_mem _ (Finset.mem_univ _), ?_⟩
      have hx : ∃ u, f.labels u = f.labels v := ⟨v, rfl⟩
      rw [dif_pos hx]
      exact h3 _ _ hx.choose_spec
    exact (Finset.card_le_card hmap).trans Finset.card_image_le
  have hle := hcardle f.labels
  rcases h4 with h5 | ⟨h5, t'', h6, h7⟩ | ⟨h5, h6⟩
  · cases h5
    rw [min_eq_right (by exact_mod_cast hle), max_eq_right (by exact_mod_cast hge)]
  · cases h6
    have hsame : numRegions isl = numRegions f.labels := by
      apply numRegions_congr
      exact fun a b => ⟨h5 a b, h3 a b⟩
    rw [hsame]
    rw [max_eq_left ((min_le_right _ _).trans h7)]
  · have hnil : f.forest = [] := by
      cases hfo : f.forest with
      | nil => rfl
      | cons e es =>
        rw [hfo] at h6
        obtain ⟨q, hq, _⟩ := h6 e (by simp) (treeLabels (((e :: es) : List (Edge n)).erase e))
          (treeLabels_separates _)
        cases hq
    have hn : numRegions f.labels = n := by
      rw [show numRegions f.labels = nComponents (adjOf f.forest) from
        card_image_eq_nComponents _ _ h1, hnil, nComponents_nil]
    have h7 := h5 t' rfl
    rw [hn] at h7 hge ⊢
    rw [min_eq_left h7.le, max_eq_right (by exact_mod_cast hge)]

/-- C65 is false by one: with two islands (that is one more than the map consists of anyway) and
`islands='increase'`, asking for one cluster gives three, although one island is "the" map and there is only
one island to account for in addition; a call with as many clusters as islands shows it as well: asking for two
gives four. -/
theorem c65_off_by_one :
    Separates (![0, 0, 1, 1] : Fin 4 → Int) islands4 ∧
    seen (fit stableOrder .default 5 (some 1) islands4 none none false "increase") =
      .ok ([0, 1, 2, 2], [(2, 3)], []) ∧
    seen (fit stableOrder .default 5 (some 2) islands4 none none false "increase") =
      .ok ([0, 1, 2, 3], [], []) ∧
    seen (fit stableOrder .default 5 (some 2) islands4 none none false "ignore") =
      .ok ([0, 0, 1, 1], [(0, 1), (2, 3)], []) := by
  refine ⟨?_, by decide +kernel⟩
  intro a b
  rw [← compLabels_eq_iff]
  revert a b
  decide +kernel

/-! ### C66 -/

/-- C66 is false: with an affinity, a call of `fit` that has to make a cut and can make one fails with a
`TypeError`. -/
theorem c66_affinity_fails (o : WeightOrder) {S : SpanningForest} {a : Metric} {g : ℚ → ℚ}
    (hS : S.metric = .affinity a g) {n : Nat} (fuel : Nat) {nClusters : Option Int} (W : Adj n)
    (data : Option (Σ m : Nat, Fin n → Row m)) (trace : Bool) {islands : String}
    {isl : Fin n → Int} (hisl : Separates isl (links S.metric W data))
    (hn : numRegions isl < n)
    (ht : ∀ t ∈ wanted nClusters islands (numRegions isl), (numRegions isl : Int) < t) :
    fit o S (fuel + 1) nClusters W data none trace islands = .raise .typeError := by
  rw [links_eq] at hisl
  have hk : numRegions isl = nComponents (active S W data) := card_image_eq_nComponents _ _ hisl
  rw [hk] at hn ht
  obtain ⟨s1, s2, s3, s4⟩ := startForest_spec o S W data
  have hlen := startForest_length o S W data
  rw [(fit_pruneLoop o S (fuel + 1) nClusters W data none trace islands).2 (by simp)]
  apply (pruneLoop_affinity hS _ none _ trace fuel s1 _).1
  constructor
  · rw [s4]
    change ∀ t ∈ aim nClusters islands (nComponents (active S W data)), _ at ht
    cases haim : aim nClusters islands (nComponents (active S W data)) with
    | none => rfl
    | some t =>
      have := ht t (by rw [haim]; rfl)
      simpa [fewer] using this
  · cases hfo : startForest o S W data with
    | nil => rw [hfo] at hlen; simp at hlen; omega
    | cons e es => exact ⟨e, by simp, fun q hq => by cases hq⟩

/-- C66: a call with an affinity that does return has made no cut at all. -/
theorem c66_affinity_no_cut {o : WeightOrder} {S : SpanningForest} {a : Metric} {g : ℚ → ℚ}
    (hS : S.metric = .affinity a g) {n fuel : Nat} {nClusters : Option Int} {W : Adj n}
    {data : Option (Σ m : Nat, Fin n → Row m)} {quorum : Option ℚ} {trace : Bool} {islands : String}
    {f : Outcome n} (h : fit o S fuel nClusters W data quorum trace islands = .ok f) :
    Separates f.labels (links S.metric W data) := by
  obtain ⟨h1, h2⟩ := fit_pruneLoop o S fuel nClusters W data quorum trace islands
  obtain ⟨s1, s2, s3, s4⟩ := startForest_spec o S W data
  by_cases hi : 1 < nComponents (active S W data) ∧
        ¬ ∀ q ∈ quorum, MeetsQuorum (treeLabels (startForest o S W data)) q
  · rw [h1 hi] at h; cases h
  · rw [h2 hi] at h
    cases fuel with
    | zero => cases h
    | succ fuel =>
      obtain ⟨h3, h4⟩ := pruneLoop_affinity hS (dataOf data).2 quorum
        (aim nClusters islands (nComponents (active S W data))) trace fuel s1
        (if trace then [(treeLabels (startForest o S W data), none)] else [])
      by_cases hv : fewer (nComponents (adjOf (startForest o S W data)))
          (aim nClusters islands (nComponents (active S W data))) = true ∧
          ∃ e ∈ startForest o S W data, ValidCut quorum (startForest o S W data) e
      · rw [h3 hv] at h; cases h
      · rw [h4 hv] at h
        cases h
        intro a b
        rw [links_eq, treeLabels_eq_iff, s3]

/-- An affinity between 0 and 1, with a polynomial in place of the logarithm. -/
def closeness : SkMetric := .affinity (fun _ x y => 1 / (1 + manhattan x y)) (fun q => 1 - q)

example : seen (fit stableOrder ⟨closeness, List.sum, fun _ => meanRow⟩ 5 (some 2) path4
      (four ![0, 1, 10, 12]) none false "increase") = .raise .typeError ∧
    seen (fit stableOrder ⟨closeness, List.sum, fun _ => meanRow⟩ 5 (some 1) path4
      (four ![0, 1, 10, 12]) none false "increase") =
      .ok ([0, 0, 0, 0], [(0, 1), (1, 2), (2, 3)], []) := by decide +kernel

/-! ### C73 -/

/-- C73: with `labels` and `target_label`, `find_cut` looks only at edges whose first end carries the
target label, and returns the best valid cut among them. -/
theorem c73_target {d : Metric} {S : SpanningForest} (hS : S.metric = .dissimilarity d) {n m : Nat}
    {msf : List (Edge n)} (hf : IsForest msf) (data : Fin n → Row m) (quorum : Option ℚ)
    (labels : Fin n → Int) (target : Int) :
    ∃ best, findCut S msf data quorum (some labels) (some target) = .ok best ∧
      (∀ e s, best = some (e, s) → e ∈ msf ∧ labels e.1 = target ∧
        (∀ q ∈ quorum, MeetsQuorum (treeLabels (msf.erase e)) q) ∧
        score S data (treeLabels (msf.erase e)) none = .ok (some s) ∧
        ∀ e' ∈ msf, labels e'.1 = target →
          (∀ q ∈ quorum, MeetsQuorum (treeLabels (msf.erase e')) q) →
          ∃ s', score S data (treeLabels (msf.erase e')) none = .ok (some s') ∧ s ≤ s') ∧
      (best = none → ∀ e ∈ msf, labels e.1 = target →
        ∃ q ∈ quorum, ¬ MeetsQuorum (treeLabels (msf.erase e)) q) := by
  obtain ⟨best, h1, h2⟩ := findCutLoop_dissimilarity hS hf data quorum (some (labels, target)) msf []
    (fun _ h => h) none (fun e he => by cases he)
  have hsc : ∀ e, score S data (treeLabels (msf.erase e)) none =
      .ok (some (cutScore d S data msf e)) := by
    intro e
    classical
    rw [score_dissimilarity hS data _ (treeLabels_consecutive _) none, if_pos (by simp)]
    rfl
  have hcand : ∀ e : Edge n, labels e.1 = target → Candidate (some (labels, target)) e := by
    intro e he z hz
    cases hz
    exact he
  rw [List.nil_append] at h2
  refine ⟨best, h1, ?_, ?_⟩
  · rintro e s rfl
    have he : e ∈ msf := h2.mem
    obtain ⟨g1, g2, g3, pre, post, g4, g5, g6⟩ := h2
    refine ⟨he, g2 _ rfl, g1, by rw [hsc, g3], ?_⟩
    intro e' he' hl hv
    refine ⟨_, hsc e', ?_⟩
    rw [g4] at he'
    rcases List.mem_append.1 he' with h | h
    · exact (g5 e' h (hcand e' hl) hv).le
    · rcases List.mem_cons.1 h with h | h
      · rw [h, g3]
      · exact g6 e' h (hcand e' hl) hv
  · rintro rfl e he hl
    have := h2 e he (hcand e hl)
    unfold ValidCut at this
    push Not at this
    exact this

/-- C73: such a cut splits the cluster of the target label and leaves the other clusters alone, if the
labels are those of the trees. -/
theorem c73_splits_target {d : Metric} {S : SpanningForest} (hS : S.metric = .dissimilarity d)
    {n m : Nat} {msf : List (Edge n)} (hf : IsForest msf) {data : Fin n → Row m} {quorum : Option ℚ}
    {labels : Fin n → Int} (hl : Separates labels (adjOf msf)) {target : Int} {e : Edge n} {s : ℚ}
    (h : findCut S msf data quorum (some labels) (some target) = .ok (some (e, s))) :
    Refines (treeLabels (msf.erase e)) labels ∧
    (∀ a b, labels a = labels b → labels a ≠ target →
      treeLabels (msf.erase e) a = treeLabels (msf.erase e) b) ∧
    labels e.1 = target ∧ labels e.2 = target ∧
    treeLabels (msf.erase e) e.1 ≠ treeLabels (msf.erase e) e.2 := by
  obtain ⟨best, h1, h2, _⟩ := c73_target hS hf data quorum labels target
  rw [h] at h1
  cases h1
  obtain ⟨he, ht, _⟩ := h2 e s rfl
  have hm : ∀ a b, mergeClass (compRepr (adjOf (msf.erase e))) e a =
      mergeClass (compRepr (adjOf (msf.erase e))) e b ↔ labels a = labels b := by
    intro a b
    rw [merge_separates (compRepr_eq_iff _) e, hl, adjOf_congr (mem_cons_erase he)]
  have hc : ∀ a b, compRepr (adjOf (msf.erase e)) a = compRepr (adjOf (msf.erase e)) b ↔
      treeLabels (msf.erase e) a = treeLabels (msf.erase e) b := by
    intro a b
    rw [compRepr_eq_iff, treeLabels_eq_iff]
  have hends : labels e.1 = labels e.2 := by
    rw [hl]
    exact .single (Or.inl (adjOf_iff.2 he))
  refine ⟨?_, ?_, ht, hends ▸ ht, ?_⟩
  · intro a b hab
    rw [← hc] at hab
    rw [← hm]
    unfold mergeClass
    rw [hab]
  · intro a b hab hat
    have ha : ¬ labels a = labels e.1 := by rw [ht]; exact hat
    have hb : ¬ labels b = labels e.1 := by rw [← hab]; exact ha
    rw [← hm] at hab
    have hca : ¬ compRepr (adjOf (msf.erase e)) a = compRepr (adjOf (msf.erase e)) e.1 := by
      intro h'
      apply ha
      rw [← hm]
      unfold mergeClass
      rw [h']
    have hcb : ¬ compRepr (adjOf (msf.erase e)) b = compRepr (adjOf (msf.erase e)) e.1 := by
      intro h'
      apply hb
      rw [← hm]
      unfold mergeClass
      rw [h']
    unfold mergeClass at hab
    rw [if_neg hca, if_neg hcb] at hab
    rwa [← hc]
  · rw [Ne, treeLabels_eq_iff]
    exact hf.2 e he

/-- C73: giving only one of the two arguments is an error. -/
theorem c73_only_one (S : SpanningForest) {n m : Nat} (msf : List (Edge n)) (data : Fin n → Row m)
    (quorum : Option ℚ) (labels : Fin n → Int) (target : Int) :
    findCut S msf data quorum (some labels) none =
      .raise (.valueError "Both labels and target_label must be supplied!") ∧
    findCut S msf data quorum none (some target) =
      .raise (.valueError "Both labels and target_label must be supplied!") := ⟨rfl, rfl⟩

/-- The best cut of the second cluster only. -/
example : Separates (![0, 0, 1, 1] : Fin 4 → Int) (adjOf [(0, 1), (2, 3)]) ∧
    IsForest ([(0, 1), (2, 3)] : List (Edge 4)) ∧
    findCut .default [(0, 1), (2, 3)] (column (k := 4) ![0, 9, 10, 12]) none (some ![0, 0, 1, 1])
      (some 1) = .ok (some ((2, 3), 9)) ∧
    findCut .default [(0, 1), (2, 3)] (column (k := 4) ![0, 9, 10, 12]) none none none =
      .ok (some ((0, 1), 2)) := by
  refine ⟨?_, isForest_of_card (by decide +kernel), by decide +kernel⟩
  intro a b
  rw [← compLabels_eq_iff]
  revert a b
  decide +kernel

/-! ### C74 -/

/-- C74, what holds: for labels `0, …, k - 1` and a sum, `score` is the sum over the clusters of the
distances to the centre, or infinite if a cluster is below the quorum. -/
theorem c74_score_partial {d : Metric} {S : SpanningForest} (hS : S.metric = .dissimilarity d)
    (hr : S.reduction = List.sum) {n m : Nat} (data : Fin n → Row m) {labels : Fin n → Int}
    (hl : ∀ l : Nat, l < numRegions labels → ∃ v, labels v = l) (quorum : Option ℚ) :
    ((∀ q ∈ quorum, MeetsQuorum labels q) → score S data labels quorum =
      .ok (some (sumOverRegions labels (spread d S.center data)))) ∧
    ((∃ q ∈ quorum, ¬ MeetsQuorum labels q) → score S data labels quorum = .ok none) := by
  classical
  rw [score_dissimilarity hS data labels hl quorum]
  constructor
  · intro h
    rw [if_pos h, mapScore_sum d hr data hl]
    rfl
  · rintro ⟨q, hq, hm⟩
    rw [if_neg (fun h => hm (h q hq))]

/-- C74 is false for other labels: `score` counts the labels and then looks for `0, …, k - 1`, so that it
fails unless these are the labels in use. -/
theorem c74_other_labels {d : Metric} {S : SpanningForest} (hS : S.metric = .dissimilarity d)
    {n m : Nat} (data : Fin n → Row m) {labels : Fin n → Int}
    (hl : ¬ ∀ l : Nat, l < numRegions labels → ∃ v, labels v = l) {quorum : Option ℚ}
    (hq : ∀ q ∈ quorum, MeetsQuorum labels q) :
    score S data labels quorum = .raise (.valueError "Found array with 0 sample(s)") := by
  have hany : ¬ ((uniqueCounts (arrayList labels)).map Prod.snd).any (below quorum) = true := by
    rw [any_below_iff]; exact not_not.2 hq
  have key : ∀ ls : List Nat, (∃ l ∈ ls, ¬ ∃ v, labels v = (l : Int)) →
      partScores S data labels ls = .raise (.valueError "Found array with 0 sample(s)") := by
    intro ls
    induction ls with
    | nil => rintro ⟨l, hl, _⟩; cases hl
    | cons x ls ih =>
      rintro ⟨l, hl, hv⟩
      unfold partScores
      by_cases hx : ∃ v, labels v = (x : Int)
      · have hl' : l ∈ ls := by
          rcases List.mem_cons.1 hl with rfl | h
          · exact absurd hx hv
          · exact h
        have hne : (whereEq labels (x : Int)).map data ≠ [] := by
          obtain ⟨v, hv⟩ := hx
          have := mem_whereEq.2 hv
          intro h0
          rw [List.map_eq_nil_iff] at h0
          rw [h0] at this
          cases this
        rw [ih ⟨l, hl', hv⟩]
        simp only [hS, SkMetric.cross, if_neg hne, Res.bind_ok, Res.bind_raise]
      · have hemp : (whereEq labels (x : Int)).map data = [] := by
          rw [List.map_eq_nil_iff, List.eq_nil_iff_forall_not_mem]
          intro v hv
          exact hx ⟨v, mem_whereEq.1 hv⟩
        rw [hemp]
        simp [hS, SkMetric.cross]
  unfold score
  simp only [hany, length_uniqueCounts]
  push Not at hl
  obtain ⟨l, hl1, hl2⟩ := hl
  rw [key _ ⟨l, List.mem_range.2 hl1, fun ⟨v, hv⟩ => hl2 v hv⟩]
  rfl

/-- The same clusters with the labels 0, 1 and with the labels 1, 2. -/
example : score .default (column (k := 4) ![0, 1, 10, 12]) ![0, 0, 1, 1] (some 2) = .ok (some 3) ∧
    score .default (column (k := 4) ![0, 1, 10, 12]) ![0, 0, 1, 1] (some 3) = .ok none ∧
    score .default (column (k := 4) ![0, 1, 10, 12]) ![1, 1, 2, 2] none =
      .raise (.valueError "Found array with 0 sample(s)") := by decide +kernel

/-! ### C75 -/

/-- C75: `find_cut(make=True)` removes exactly the edge `find_cut` returns, which adds one tree; it
raises an `OptimizeWarning` exactly if no removal meets the quorum. -/
theorem c75_make_cut {d : Metric} {S : SpanningForest} (hS : S.metric = .dissimilarity d) {n m : Nat}
    {msf : List (Edge n)} (hf : IsForest msf) (data : Fin n → Row m) (quorum : Option ℚ) :
    (∀ msf', findAndMakeCut S msf data quorum none none = .ok msf' →
      ∃ e s, findCut S msf data quorum none none = .ok (some (e, s)) ∧ e ∈ msf ∧
        (∀ x, x ∈ msf' ↔ x ∈ msf ∧ x ≠ e) ∧ IsForest msf' ∧
        numRegions (treeLabels msf') = numRegions (treeLabels msf) + 1) ∧
    (∀ x, findAndMakeCut S msf data quorum none none = .raise x ↔ x = .optimizeWarning ∧
      ∀ e ∈ msf, ∃ q ∈ quorum, ¬ MeetsQuorum (treeLabels (msf.erase e)) q) := by
  obtain ⟨best, h1, h2⟩ := findCut_dissimilarity hS hf data quorum
  unfold findAndMakeCut
  rw [h1]
  simp only [Res.bind_ok]
  cases best with
  | none =>
    refine ⟨(by intro msf' h; cases h), ?_⟩
    intro x
    constructor
    · intro h
      cases h
      refine ⟨rfl, fun e he => ?_⟩
      have := h2 e he (fun _ hz => by cases hz)
      unfold ValidCut at this
      push Not at this
      exact this
    · rintro ⟨rfl, _⟩
      rfl
  | some p =>
    obtain ⟨e, s⟩ := p
    have he : e ∈ msf := h2.mem
    constructor
    · intro msf' h
      cases h
      refine ⟨e, s, rfl, he, ?_, hf.erase e, ?_⟩
      · intro x
        rw [hf.1.mem_erase_iff]
        exact and_comm
      · rw [numRegions_treeLabels, numRegions_treeLabels, hf.nComponents_erase he]
    · intro x
      constructor
      · intro h; cases h
      · rintro ⟨_, h⟩
        obtain ⟨q, hq, hm⟩ := h e he
        exact absurd (h2.1 q hq) hm

example : findAndMakeCut .default [(0, 1), (1, 2), (2, 3)] (column (k := 4) ![0, 1, 10, 12]) (some 2)
      none none = .ok [(0, 1), (2, 3)] ∧
    findAndMakeCut .default [(0, 1), (1, 2), (2, 3)] (column (k := 4) ![0, 1, 10, 12]) (some 3)
      none none = .raise .optimizeWarning := by decide +kernel

/-- C75: on a matrix that is not a forest the search stops with an error as soon as it meets an edge on
a cycle. -/
theorem c75_malformed : findCut .default [(0, 1), (1, 2), (2, 0)] (column (k := 3) ![0, 1, 10]) none none
    none = .raise (.exception "Malformed MSF!") := by decide +kernel

/-! ### C76 -/

/-- C76, what holds: if scores are sums and the centre minimises the sum of the distances in a cluster,
then along the trace the score never rises. -/
theorem c76_scores_fall_partial {o : WeightOrder} {d : Metric} {S : SpanningForest}
    (hS : S.metric = .dissimilarity d) (hr : S.reduction = List.sum)
    {n m fuel : Nat} {nClusters : Option Int} {W : Adj n}
    {data : Fin n → Row m} {quorum : Option ℚ} {islands : String} {f : Outcome n}
    (hc : ∀ rows : List (Row m), ∀ c : Row m,
      (rows.map fun x => d m x (S.center m rows)).sum ≤ (rows.map fun x => d m x c).sum)
    (h : fit o S fuel nClusters W (some ⟨m, data⟩) quorum true islands = .ok f) :
    f.trace.IsChain fun x y => ∃ e s t, y.2 = some (e, s) ∧
      score S data y.1 none = .ok (some s) ∧ score S data x.1 none = .ok (some t) ∧ s ≤ t := by
  obtain ⟨d', hd', hd, _⟩ := fit_ok h
  obtain rfl := hd' d hS
  obtain ⟨st, hst, htr⟩ := hd.steps
  obtain ⟨s1, _⟩ := startForest_spec o S W (some ⟨m, data⟩)
  simp only [if_true, List.singleton_append] at htr
  obtain ⟨h1, _⟩ := hst.isChain s1 none
  rw [htr]
  have hcons : ∀ p ∈ (treeLabels (startForest o S W (some ⟨m, data⟩)), none) :: st, Consecutive p.1 := by
    intro p hp
    rcases List.mem_cons.1 hp with rfl | hp
    · exact treeLabels_consecutive _
    · exact (hst.scores p hp).1
  have hsc : ∀ p : (Fin n → Int) × Deletion n, Consecutive p.1 →
      score S data p.1 none = .ok (some (mapScore d' S data p.1)) := by
    intro p hp
    classical
    rw [score_dissimilarity hS data _ hp none, if_pos (by simp)]
  have key : ∀ (l : List ((Fin n → Int) × Deletion n)) (x : (Fin n → Int) × Deletion n),
      (∀ p ∈ x :: l, Consecutive p.1) →
      (∀ p ∈ l, ∃ e, p.2 = some (e, mapScore d' S data p.1)) → List.IsChain Cut (x :: l) →
      List.IsChain (fun x y => ∃ e s t, y.2 = some (e, s) ∧
        score S data y.1 none = .ok (some s) ∧ score S data x.1 none = .ok (some t) ∧ s ≤ t) (x :: l) := by
    intro l
    induction l with
    | nil => intro x _ _ _; exact List.isChain_singleton _
    | cons y l ih =>
      intro x h2 h3 h4
      rw [List.isChain_cons_cons] at h4 ⊢
      refine ⟨?_, ih y (fun p hp => h2 p (by simp [hp])) (fun p hp => h3 p (by simp [hp])) h4.2⟩
      obtain ⟨e, he⟩ := h3 y (by simp)
      have hy := h2 y (by simp)
      have hx := h2 x (by simp)
      exact ⟨e, _, _, he, hsc y hy, hsc x hx,
        mapScore_refines d' hr data hc hy hx h4.1.1.1⟩
  refine key st _ hcons (fun p hp => ?_) h1
  obtain ⟨_, e, h5, _⟩ := hst.scores p hp
  exact ⟨e, h5⟩

/-- The squared distance, for which the mean is the best centre. -/
example : seen (fit stableOrder ⟨.dissimilarity fun m x y =>
      ((List.finRange m).map fun i => (x i - y i) * (x i - y i)).sum, List.sum, fun _ => meanRow⟩ 5
      (some 3) path4 (four ![0, 1, 10, 12]) none true "increase") =
    .ok ([0, 0, 1, 2], [(0, 1)], [([0, 0, 0, 0], none), ([0, 0, 1, 1], some ((1, 2), 5 / 2)),
      ([0, 0, 1, 2], some ((2, 3), 1 / 2))]) := by decide +kernel

/-- C76 is false for the default arguments: the mean does not minimise the sum of the absolute distances.
On the path of six areas with data 0, 30, 1, -1, -30, 0 and a quorum of three, the only cut raises the score
from 62 to 236/3. -/
theorem c76_score_rises :
    seen (fit stableOrder .default 7 (some 2)
      (fun i j : Fin 6 => decide (i.val + 1 = j.val ∨ j.val + 1 = i.val))
      (some ⟨1, column ![0, 30, 1, -1, -30, 0]⟩) (some 3) true "increase") =
      .ok ([0, 0, 0, 1, 1, 1], [(0, 1), (1, 2), (3, 4), (4, 5)],
        [([0, 0, 0, 0, 0, 0], none), ([0, 0, 0, 1, 1, 1], some ((2, 3), 236 / 3))]) ∧
    score .default (column (k := 6) ![0, 30, 1, -1, -30, 0]) (fun _ => 0) none = .ok (some 62) ∧
    (62 : ℚ) < 236 / 3 := by decide +kernel

end Region.Props
