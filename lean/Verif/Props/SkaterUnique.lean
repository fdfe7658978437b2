import Verif.Lemmas.SkaterUnique
import Verif.Props.SkaterForest
/-
Property theorem C107: without ties SKATER's clusters are determined by the map and the data.
-/
namespace Region.Props

open Region Spec Skater

set_option synthInstance.maxSize 2000

/-! ### The forest -/

section
variable (o : WeightOrder) (S : SpanningForest) {n : Nat} (W : Adj n)
  (data : Option (Σ m : Nat, Fin n → Row m))

theorem filter_lighter {e : Edge n} (he : links S.metric W data e.1 e.2 = true) :
    adjOf ((o.order (dissim W (kernelOf S data))).filter fun f => decide
      (dissim W (kernelOf S data) f.1 f.2 < dissim W (kernelOf S data) e.1 e.2)) =
    fun i j => links S.metric W data i j &&
      decide (unlikeness S.metric data i j < unlikeness S.metric data e.1 e.2) := by
  funext i j
  rw [Bool.eq_iff_iff, adjOf_iff, List.mem_filter, mem_order, Bool.and_eq_true]
  refine and_congr_right fun hl => ?_
  rw [unlikeness_of_link S W data hl, unlikeness_of_link S W data he]

theorem startForest_noDetour {e : Edge n} (he : e ∈ startForest o S W data) :
    NoDetour (links S.metric W data) (unlikeness S.metric data) e.1 e.2 := by
  have hl : links S.metric W data e.1 e.2 = true := by
    rw [links_eq]; exact (startForest_spec o S W data).2.1 e he
  refine ⟨hl, ?_⟩
  rw [← filter_lighter o S W data hl]
  exact kruskal_noDetour (fun e => dissim W (kernelOf S data) e.1 e.2) (o.sorted _)
    ((spanningForest_perm o _).mem_iff.2 he)

theorem noDetour_startForest (hd : AllDifferent (links S.metric W data) (unlikeness S.metric data))
    {a b : Fin n} (h : NoDetour (links S.metric W data) (unlikeness S.metric data) a b) :
    (a, b) ∈ startForest o S W data ∨ (b, a) ∈ startForest o S W data := by
  have hl := h.1
  have h2 := h.2
  rw [← filter_lighter o S W data (e := (a, b)) hl] at h2
  have := noDetour_kruskal (fun e => dissim W (kernelOf S data) e.1 e.2) (o.sorted _) (e := (a, b))
    ((mem_order o S W data).2 hl) ?_ h2
  · rcases this with h | h
    · exact Or.inl ((spanningForest_perm o _).mem_iff.1 h)
    · exact Or.inr ((spanningForest_perm o _).mem_iff.1 h)
  · rintro ⟨i, j⟩ hf hw
    have hij := (mem_order o S W data).1 hf
    dsimp only at hw hij
    rw [← unlikeness_of_link S W data hl, ← unlikeness_of_link S W data hij] at hw
    rcases hd _ _ _ _ hl hij hw.symm with ⟨rfl, rfl⟩ | ⟨rfl, rfl⟩
    · exact Or.inl rfl
    · exact Or.inr rfl

theorem borders_startForest (hd : AllDifferent (links S.metric W data) (unlikeness S.metric data))
    (a b : Fin n) : Borders (adjOf (startForest o S W data)) a b ↔
      NoDetour (links S.metric W data) (unlikeness S.metric data) a b ∨
        NoDetour (links S.metric W data) (unlikeness S.metric data) b a := by
  unfold Borders
  rw [adjOf_iff, adjOf_iff]
  constructor
  · rintro (h | h)
    · exact Or.inl (startForest_noDetour o S W data h)
    · exact Or.inr (startForest_noDetour o S W data h)
  · rintro (h | h)
    · exact noDetour_startForest o S W data hd h
    · exact (noDetour_startForest o S W data hd h).symm

end

section
variable {o : WeightOrder} {S : SpanningForest} {n fuel : Nat} {nClusters : Option Int} {W : Adj n}
  {data : Option (Σ m : Nat, Fin n → Row m)} {quorum : Option ℚ} {trace : Bool} {islands : String}
  {f : Outcome n}

/-- C107: no link of the forest can be replaced by a detour over links between less different areas. -/
theorem c107_no_detour (h : fit o S fuel nClusters W data quorum trace islands = .ok f) :
    ∀ e ∈ f.forest, NoDetour (links S.metric W data) (unlikeness S.metric data) e.1 e.2 := by
  obtain ⟨d, _, hd, _⟩ := fit_ok h
  obtain ⟨st, hst, _⟩ := hd.steps
  exact fun e he => startForest_noDetour o S W data (hst.sublist.subset he)

/-- C107: if no two links join equally different areas, the forest SKATER prunes consists of all the
links that cannot be replaced by such a detour, each of them in one direction. -/
theorem c107_forest (h : fit o S fuel nClusters W data quorum trace islands = .ok f)
    {isl : Fin n → Int} (hisl : Separates isl (links S.metric W data))
    (hno : numRegions f.labels = numRegions isl)
    (hd : AllDifferent (links S.metric W data) (unlikeness S.metric data)) (a b : Fin n) :
    ((a, b) ∈ f.forest ∨ (b, a) ∈ f.forest ↔
      NoDetour (links S.metric W data) (unlikeness S.metric data) a b ∨
        NoDetour (links S.metric W data) (unlikeness S.metric data) b a) ∧
    ((a, b) ∈ f.forest → (b, a) ∉ f.forest) := by
  rw [forest_of_no_cut h hisl hno]
  refine ⟨?_, fun h => isForest_not_swap (startForest_spec o S W data).1 h⟩
  rw [← borders_startForest o S W data hd]
  unfold Borders
  rw [adjOf_iff, adjOf_iff]

end

/-! ### The clusters -/

/-- The data of the areas in another numbering. -/
def renumbered {n : Nat} (σ : Equiv.Perm (Fin n)) (data : Option (Σ m : Nat, Fin n → Row m)) :
    Option (Σ m : Nat, Fin n → Row m) := data.map fun x => ⟨x.1, x.2 ∘ σ⟩

section
variable (o o' : WeightOrder) (S : SpanningForest) {n : Nat} (W : Adj n)
  (data : Option (Σ m : Nat, Fin n → Row m)) (σ : Equiv.Perm (Fin n))

theorem links_renumbered (i j : Fin n) :
    links S.metric (fun a b => W (σ a) (σ b)) (renumbered σ data) i j = links S.metric W data (σ i) (σ j) := by
  cases data with
  | none => rfl
  | some x => unfold links renumbered; cases S.metric <;> rfl

theorem unlikeness_renumbered (i j : Fin n) :
    unlikeness S.metric (renumbered σ data) i j = unlikeness S.metric data (σ i) (σ j) := by
  cases data with
  | none => rfl
  | some x => unfold unlikeness renumbered; cases S.metric <;> rfl

theorem noDetour_renumbered (a b : Fin n) :
    NoDetour (links S.metric (fun a b => W (σ a) (σ b)) (renumbered σ data))
        (unlikeness S.metric (renumbered σ data)) a b ↔
      NoDetour (links S.metric W data) (unlikeness S.metric data) (σ a) (σ b) := by
  unfold NoDetour
  simp only [links_renumbered, unlikeness_renumbered]
  rw [← sameIsland_comp σ]

theorem startForest_sameLinks
    (hd : AllDifferent (links S.metric W data) (unlikeness S.metric data)) :
    SameLinks σ (startForest o S W data)
      (startForest o' S (fun a b => W (σ a) (σ b)) (renumbered σ data)) := by
  intro a b
  rw [borders_startForest o S W data hd, borders_startForest, noDetour_renumbered, noDetour_renumbered]
  intro i j k l h1 h2 h3
  rw [links_renumbered] at h1 h2
  rw [unlikeness_renumbered, unlikeness_renumbered] at h3
  rcases hd _ _ _ _ h1 h2 h3 with ⟨h4, h5⟩ | ⟨h4, h5⟩
  · exact Or.inl ⟨σ.injective h4, σ.injective h5⟩
  · exact Or.inr ⟨σ.injective h4, σ.injective h5⟩

end

/-- Two outcomes are the same clustering, found by the same cuts, in two numberings of the areas: the
same clusters, the same links left, and cuts with the same scores. -/
structure Agree {n : Nat} (σ : Equiv.Perm (Fin n)) (f f' : Outcome n) : Prop where
  clusters : ∀ a b, f'.labels a = f'.labels b ↔ f.labels (σ a) = f.labels (σ b)
  links : ∀ a b, (a, b) ∈ f'.forest ∨ (b, a) ∈ f'.forest ↔
    (σ a, σ b) ∈ f.forest ∨ (σ b, σ a) ∈ f.forest
  scores : f'.trace.map (fun p => p.2.map Prod.snd) = f.trace.map fun p => p.2.map Prod.snd
  steps : List.Forall₂ (fun p p' => ∀ a b, p'.1 a = p'.1 b ↔ p.1 (σ a) = p.1 (σ b)) f.trace f'.trace

theorem MatchedOutcome.agree {n : Nat} {σ : Equiv.Perm (Fin n)} {f f' : Outcome n}
    (h : MatchedOutcome σ f f') : Agree σ f f' where
  clusters a b := (h.labels a b).symm
  links a b := by
    have := h.forest a b
    unfold Borders at this
    simp only [adjOf_iff] at this
    exact this.symm
  scores := by
    obtain ⟨_, _, this⟩ := h
    revert this
    generalize f.trace = l
    generalize f'.trace = l'
    intro this
    induction this with
    | nil => rfl
    | cons h1 _ ih =>
      rename_i x y _ _ _
      simp only [List.map_cons, ih]
      congr 1
      have h2 := h1.2
      rcases hx : x.2 with _ | ⟨e, s⟩ <;> rcases hy : y.2 with _ | ⟨e', s'⟩ <;> rw [hx, hy] at h2 <;>
        first | rfl | exact h2.elim | simp [h2.2]
  steps := h.trace.imp fun x y h a b => (h.1 a b).symm

/-- C107: if no two links join equally different areas and no two cuts of the forest are equally good, the
clusters SKATER finds are determined by the map and the data alone: neither the order in which equal
entries are sorted nor the numbering of the areas has an influence (on errors neither). -/
theorem c107_fit (o o' : WeightOrder) {d : Metric} {S : SpanningForest}
    (hS : S.metric = .dissimilarity d) (hr : S.reduction = List.sum)
    (hc : ∀ m l l', l.Perm l' → S.center m l = S.center m l') {n : Nat} (fuel : Nat)
    (nClusters : Option Int) (W : Adj n) (data : Option (Σ m : Nat, Fin n → Row m))
    (quorum : Option ℚ) (trace : Bool) (islands : String) (σ : Equiv.Perm (Fin n))
    (hd : AllDifferent (links S.metric W data) (unlikeness S.metric data))
    (ht : NoEqualCuts (NoDetour (links S.metric W data) (unlikeness S.metric data)) fun L =>
      sumOverRegions L (spread d S.center (data.getD ⟨1, fun _ _ => 1⟩).2)) :
    match fit o S fuel nClusters W data quorum trace islands,
      fit o' S fuel nClusters (fun a b => W (σ a) (σ b)) (renumbered σ data) quorum trace islands with
    | .ok f, .ok f' => Agree σ f f'
    | .raise e, .raise e' => e = e'
    | .timeout, .timeout => True
    | _, _ => False := by
  have hsl := startForest_sameLinks o o' S W data σ hd
  have key : Res.Rel (MatchedOutcome σ) (fit o S fuel nClusters W data quorum trace islands)
      (fit o' S fuel nClusters (fun a b => W (σ a) (σ b)) (renumbered σ data) quorum trace islands) := by
    obtain ⟨h1, h2⟩ := fit_pruneLoop o S fuel nClusters W data quorum trace islands
    obtain ⟨h1', h2'⟩ := fit_pruneLoop o' S fuel nClusters (fun a b => W (σ a) (σ b))
      (renumbered σ data) quorum trace islands
    have hk : nComponents (active S (fun a b => W (σ a) (σ b)) (renumbered σ data)) =
        nComponents (active S W data) := by
      rw [← (startForest_spec o S W data).2.2.2, ← (startForest_spec o' S _ _).2.2.2, hsl.nComponents]
    have hq : (∀ q ∈ quorum, MeetsQuorum (treeLabels (startForest o' S (fun a b => W (σ a) (σ b))
        (renumbered σ data))) q) ↔ ∀ q ∈ quorum, MeetsQuorum (treeLabels (startForest o S W data)) q :=
      forall_congr' fun q => imp_congr_right fun _ => (meetsQuorum_comp hsl.sameParts q).symm
    rw [hk, hq] at h1'
    rw [hk, hq] at h2'
    by_cases hi : 1 < nComponents (active S W data) ∧
        ¬ ∀ q ∈ quorum, MeetsQuorum (treeLabels (startForest o S W data)) q
    · rw [h1 hi, h1' hi]
      rfl
    · rw [h2 hi, h2' hi]
      have hdata : ∀ {a t tr F}, pruneLoop S (dataOf (renumbered σ data)).2 quorum a t fuel F tr =
          pruneLoop S ((dataOf data).2 ∘ σ) quorum a t fuel F tr := by
        intros; cases data <;> rfl
      rw [hdata]
      refine pruneLoop_unique hS hr (hc _) _ ht quorum _ trace fuel (startForest_spec o S W data).1
        (startForest_spec o' S _ _).1 hsl (fun e he => startForest_noDetour o S W data he) ?_
      cases trace with
      | false => exact .nil
      | true => exact .cons ⟨hsl.sameParts, trivial⟩ .nil
  revert key
  generalize fit o S fuel nClusters W data quorum trace islands = x
  generalize fit o' S fuel nClusters _ _ quorum trace islands = y
  intro key
  cases x <;> cases y <;> first | exact key | exact MatchedOutcome.agree key

/-- C107 for one numbering: the very same labels, whichever way equal entries are sorted. -/
theorem c107_orders (o o' : WeightOrder) {d : Metric} {S : SpanningForest}
    (hS : S.metric = .dissimilarity d) (hr : S.reduction = List.sum)
    (hc : ∀ m l l', l.Perm l' → S.center m l = S.center m l') {n : Nat} (fuel : Nat)
    (nClusters : Option Int) (W : Adj n) (data : Option (Σ m : Nat, Fin n → Row m))
    (quorum : Option ℚ) (trace : Bool) (islands : String)
    (hd : AllDifferent (links S.metric W data) (unlikeness S.metric data))
    (ht : NoEqualCuts (NoDetour (links S.metric W data) (unlikeness S.metric data)) fun L =>
      sumOverRegions L (spread d S.center (data.getD ⟨1, fun _ _ => 1⟩).2)) {f f' : Outcome n}
    (h : fit o S fuel nClusters W data quorum trace islands = .ok f)
    (h' : fit o' S fuel nClusters W data quorum trace islands = .ok f') : f'.labels = f.labels := by
  have key := c107_fit o o' hS hr hc fuel nClusters W data quorum trace islands (Equiv.refl _) hd ht
  have e1 : renumbered (Equiv.refl (Fin n)) data = data := by cases data <;> rfl
  rw [e1] at key
  change (match fit o S fuel nClusters W data quorum trace islands,
      fit o' S fuel nClusters W data quorum trace islands with
    | .ok f, .ok f' => Agree (Equiv.refl _) f f'
    | .raise e, .raise e' => e = e'
    | .timeout, .timeout => True
    | _, _ => False) at key
  rw [h, h'] at key
  obtain ⟨_, _, g, _⟩ := fit_ok h
  obtain ⟨_, _, g', _⟩ := fit_ok h'
  rw [g.labels, g'.labels]
  apply treeLabels_congr
  intro a b
  rw [← treeLabels_eq_iff, ← treeLabels_eq_iff, ← g.labels, ← g'.labels]
  exact key.clusters a b

/-! Examples -/

theorem total_congr {d : Metric} {S : SpanningForest} {n m : Nat} {data : Fin n → Row m}
    {L L' : Fin n → Int} (h : ∀ a b, L a = L b ↔ L' a = L' b) :
    total d S data L = total d S data L' := by
  unfold total
  rw [sumOverRegions_sum L fun C u => d m (data u) (S.center m ((C.sort (· ≤ ·)).map data)),
    sumOverRegions_sum L' fun C u => d m (data u) (S.center m ((C.sort (· ≤ ·)).map data))]
  have hcls : ∀ u, (Finset.univ.filter fun v => L v = L u) = Finset.univ.filter fun v => L' v = L' u := by
    intro u; ext v; simp [h]
  simp only [hcls]

/-- Whether any two cuts are equally good can be seen from the sublists of the forest. -/
theorem noEqualCuts_of_check {d : Metric} {S : SpanningForest} (hr : S.reduction = List.sum) {n m : Nat}
    {data : Fin n → Row m} {F : List (Edge n)} (hF : IsForest F) {K : Fin n → Fin n → Prop}
    (hK : ∀ a b, K a b → (a, b) ∈ F ∨ (b, a) ∈ F)
    (hcheck : ∀ T ∈ F.sublists, ∀ e ∈ T, ∀ f ∈ T,
      cutScore d S data T e = cutScore d S data T f → e = f) :
    NoEqualCuts K (total d S data) := by
  intro T hT a b c e hab hce L L' hL hL' heq
  obtain ⟨T', hT'⟩ : ∃ T', T' = F.filter fun e => T e.1 e.2 || T e.2 e.1 := ⟨_, rfl⟩
  have hsub : T'.Sublist F := by rw [hT']; exact List.filter_sublist
  have hforest := hF.sublist hsub
  have hb : ∀ i j, Borders (adjOf T') i j ↔ Borders T i j := by
    intro i j
    unfold Borders
    rw [adjOf_iff, adjOf_iff, hT', List.mem_filter, List.mem_filter]
    simp only [Bool.or_eq_true]
    constructor
    · rintro (⟨_, h⟩ | ⟨_, h⟩)
      · exact h
      · exact h.symm
    · rintro (h | h)
      · rcases hK _ _ (hT _ _ h) with h1 | h1
        · exact Or.inl ⟨h1, Or.inl h⟩
        · exact Or.inr ⟨h1, Or.inr h⟩
      · rcases hK _ _ (hT _ _ h) with h1 | h1
        · exact Or.inr ⟨h1, Or.inl h⟩
        · exact Or.inl ⟨h1, Or.inr h⟩
  have key : ∀ i j, T i j = true → ∀ M : Fin n → Int, Separates M (uncut T i j) →
      ∃ x ∈ T', (x = (i, j) ∨ x = (j, i)) ∧ total d S data M = cutScore d S data T' x := by
    intro i j hij M hM
    have : ∃ x ∈ T', x = (i, j) ∨ x = (j, i) := by
      rcases (hb i j).2 (Or.inl hij) with h | h
      · exact ⟨_, adjOf_iff.1 h, Or.inl rfl⟩
      · exact ⟨_, adjOf_iff.1 h, Or.inr rfl⟩
    obtain ⟨x, hx, hxe⟩ := this
    refine ⟨x, hx, hxe, ?_⟩
    rw [cutScore_total hr]
    apply total_congr
    intro u v
    rw [hM, treeLabels_eq_iff]
    have : Borders (uncut T i j) = Borders (adjOf (T'.erase x)) := by
      funext p q
      rw [borders_erase hforest hx, hb]
      unfold Borders uncut
      simp only [Bool.and_eq_true, decide_eq_true_eq]
      rcases hxe with rfl | rfl <;> exact propext (by tauto)
    unfold SameIsland
    rw [this]
  obtain ⟨x, hx, hx1, hx2⟩ := key a b hab L hL
  obtain ⟨y, hy, hy1, hy2⟩ := key c e hce L' hL'
  have hxy := hcheck T' (List.mem_sublists.2 hsub) x hx y hy (by rw [← hx2, ← hy2]; exact heq)
  subst hxy
  rcases hx1 with rfl | rfl <;> rcases hy1 with h | h <;> cases h <;> simp

theorem meanRow_perm (m : Nat) (l l' : List (Row m)) (h : l.Perm l') : meanRow l = meanRow l' := by
  funext j
  unfold meanRow
  rw [(h.map _).sum_eq, h.length_eq]

/-- A ring of four areas meeting the hypotheses of `c107_fit`. -/
theorem ring4_no_ties :
    AllDifferent (links SpanningForest.default.metric ring4 (four ![0, 1, 3, 7]))
      (unlikeness SpanningForest.default.metric (four ![0, 1, 3, 7])) ∧
    NoEqualCuts (NoDetour (links SpanningForest.default.metric ring4 (four ![0, 1, 3, 7]))
      (unlikeness SpanningForest.default.metric (four ![0, 1, 3, 7]))) fun L =>
        sumOverRegions L (spread (fun _ => manhattan) SpanningForest.default.center
          ((four ![0, 1, 3, 7]).getD ⟨1, fun _ _ => 1⟩).2) := by
  constructor
  · unfold AllDifferent
    decide +kernel
  · refine noEqualCuts_of_check (S := .default) (F := [(0, 1), (1, 2), (2, 3)]) rfl path4_forest ?_ ?_
    · intro a b h
      have h1 := h.1
      have h2 := h.2
      rw [← compLabels_eq_iff] at h2
      revert h1 h2
      clear h
      revert a b
      decide +kernel
    · decide +kernel

/-- The areas of the ring in the opposite order: the same clusters. -/
example : seen (fit stableOrder .default 5 (some 3) ring4 (four ![0, 1, 3, 7]) none true "increase") =
      .ok ([0, 0, 1, 2], [(0, 1)],
        [([0, 0, 0, 0], none), ([0, 0, 0, 1], some ((2, 3), 10 / 3)), ([0, 0, 1, 2], some ((1, 2), 1))]) ∧
    seen (fit stableOrder .default 5 (some 3) (fun a b => ring4 (Fin.revPerm a) (Fin.revPerm b))
        (renumbered Fin.revPerm (four ![0, 1, 3, 7])) none true "increase") =
      .ok ([0, 1, 2, 2], [(2, 3)],
        [([0, 0, 0, 0], none), ([0, 1, 1, 1], some ((0, 1), 10 / 3)), ([0, 1, 2, 2], some ((1, 2), 1))]) := by
  decide +kernel

example (o o' : WeightOrder) (σ : Equiv.Perm (Fin 4)) :=
  c107_fit o o' (S := .default) rfl rfl meanRow_perm 5 (some 3) ring4 (four ![0, 1, 3, 7]) none true
    "increase" σ ring4_no_ties.1 ring4_no_ties.2

/-- Sorting the entries by weight, equal ones in the opposite order. -/
def lateOrder : WeightOrder where
  order := fun {n} w => (edgesOf (n := n) fun i j => decide (w i j ≠ 0)).reverse.insertionSort
    fun e f => w e.1 e.2 ≤ w f.1 f.2
  perm := fun w => (List.perm_insertionSort _ _).trans (List.reverse_perm _)
  sorted := fun {n} w => by
    have : Std.Total (fun e f : Edge n => w e.1 e.2 ≤ w f.1 f.2) := ⟨fun _ _ => le_total _ _⟩
    have : IsTrans (Edge n) (fun e f => w e.1 e.2 ≤ w f.1 f.2) := ⟨fun _ _ _ => le_trans⟩
    exact List.pairwise_insertionSort _ _

/-- Three areas bordering each other. -/
def triangle : Adj 3 := fun a b => decide (a ≠ b)

/-- Three equally different areas. -/
def corners : Option (Σ m : Nat, Fin 3 → Row m) := some ⟨2, ![![0, 0], ![1, 1], ![2, 0]]⟩

/-- With ties the clusters do depend on the order in which equal entries are sorted. -/
theorem c107_ties_matter : ∃ f f', fit stableOrder .default 4 (some 2) triangle corners none false "increase" = .ok f ∧
    fit lateOrder .default 4 (some 2) triangle corners none false "increase" = .ok f' ∧
    ¬ ∀ a b, f'.labels a = f'.labels b ↔ f.labels a = f.labels b := by
  have h : (match fit stableOrder .default 4 (some 2) triangle corners none false "increase",
      fit lateOrder .default 4 (some 2) triangle corners none false "increase" with
    | .ok f, .ok f' => !decide (∀ a b, f'.labels a = f'.labels b ↔ f.labels a = f.labels b)
    | _, _ => false) = true := by decide +kernel
  revert h
  generalize fit stableOrder .default 4 (some 2) triangle corners none false "increase" = x
  generalize fit lateOrder .default 4 (some 2) triangle corners none false "increase" = y
  intro h
  cases x <;> cases y <;> first | cases h | skip
  exact ⟨_, _, rfl, rfl, by simpa using h⟩

end Region.Props
