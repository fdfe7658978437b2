import Mathlib.Data.List.Dedup
import Mathlib.Data.Finset.Sort
import Mathlib.Algebra.Order.BigOperators.Group.Finset
import Verif.Lemmas.Forest
import Verif.Lemmas.Res
import Verif.Model.Skater
/-
Lemmas about the model of SKATER.
-/
namespace Region.Skater

open Spec Relation

/-! ### Forests -/

theorem edgesOf_nodup {n : Nat} (adj : Adj n) : (edgesOf adj).Nodup := by
  unfold edgesOf
  rw [List.nodup_flatMap]
  constructor
  · intro i _
    exact ((List.nodup_finRange n).filter _).map (fun a b h => by simpa using h)
  · apply (List.nodup_finRange n).imp
    intro i j hij
    simp only [Function.onFun, List.disjoint_left, List.mem_map, List.mem_filter]
    rintro x ⟨a, _, rfl⟩ ⟨b, _, hb⟩
    exact hij (by simpa using (congrArg Prod.fst hb).symm)

theorem isForest_perm {n : Nat} {es es' : List (Edge n)} (hp : es.Perm es') (h : IsForest es) :
    IsForest es' := by
  refine ⟨hp.nodup_iff.1 h.1, fun e he hs => h.2 e (hp.mem_iff.2 he) ?_⟩
  rwa [adjOf_congr (fun x => (hp.erase e).mem_iff)]

theorem adjOf_edgesOf {n : Nat} (adj : Adj n) : adjOf (edgesOf adj) = adj := by
  funext i j
  rw [Bool.eq_iff_iff, adjOf_iff, mem_edgesOf]

theorem spanningForest_perm (o : WeightOrder) {n : Nat} (w : Fin n → Fin n → ℚ) :
    (kruskal (o.order w)).Perm (spanningForest o w) := by
  unfold spanningForest
  refine (List.perm_ext_iff_of_nodup (kruskal_spec _).1.1 (edgesOf_nodup _)).2 ?_
  intro e
  show _ ↔ (e.1, e.2) ∈ edgesOf _
  rw [mem_edgesOf, adjOf_iff]

theorem spanningForest_spec (o : WeightOrder) {n : Nat} (w : Fin n → Fin n → ℚ) :
    IsForest (spanningForest o w) ∧ (∀ e ∈ spanningForest o w, w e.1 e.2 ≠ 0) ∧
      (∀ a b, SameIsland (adjOf (spanningForest o w)) a b ↔
        SameIsland (fun i j => decide (w i j ≠ 0)) a b) ∧
      nComponents (adjOf (spanningForest o w)) + (spanningForest o w).length = n := by
  obtain ⟨h1, h2, h3, h4⟩ := kruskal_spec (o.order w)
  have hp := spanningForest_perm o w
  have ha : adjOf (spanningForest o w) = adjOf (kruskal (o.order w)) := adjOf_edgesOf _
  have ho : adjOf (o.order w) = fun i j => decide (w i j ≠ 0) := by
    funext i j
    rw [Bool.eq_iff_iff, adjOf_iff, (o.perm w).mem_iff, mem_edgesOf]
  refine ⟨isForest_perm hp h1, ?_, ?_, ?_⟩
  · intro e he
    have := h2 e (hp.mem_iff.2 he)
    rw [(o.perm w).mem_iff] at this
    simpa using mem_edgesOf.1 this
  · intro a b
    rw [ha, h3, ho]
  · rw [ha, ← hp.length_eq, h4]

theorem isForest_card {n : Nat} {es : List (Edge n)} (h : IsForest es) :
    nComponents (adjOf es) + es.length = n := by
  obtain ⟨k, hk⟩ : ∃ k, es.length = k := ⟨_, rfl⟩
  induction k generalizing es with
  | zero =>
    rw [List.length_eq_zero_iff] at hk
    subst hk
    simp [nComponents_nil]
  | succ k ih =>
    obtain ⟨e, es', rfl⟩ : ∃ e es', es = e :: es' := by
      cases es with
      | nil => simp at hk
      | cons e es' => exact ⟨e, es', rfl⟩
    have h1 := h.nComponents_erase (e := e) (by simp)
    have h2 := ih (h.erase e) (by simpa using hk)
    simp only [List.erase_cons_head] at h1 h2
    simp only [List.length_cons] at hk ⊢
    omega

/-! ### Labels of the trees -/

theorem treeLabels_eq_iff {n : Nat} (msf : List (Edge n)) (a b : Fin n) :
    treeLabels msf a = treeLabels msf b ↔ SameIsland (adjOf msf) a b := by
  unfold treeLabels
  rw [Int.natCast_inj, compLabels_eq_iff]

theorem numRegions_treeLabels {n : Nat} (msf : List (Edge n)) :
    numRegions (treeLabels msf) = nComponents (adjOf msf) :=
  card_image_eq_nComponents _ _ (treeLabels_eq_iff msf)

theorem eraseDups_nodup {α : Type} [DecidableEq α] (l : List α) : l.eraseDups.Nodup := by
  obtain ⟨k, hk⟩ : ∃ k, l.length ≤ k := ⟨_, le_refl _⟩
  induction k generalizing l with
  | zero =>
    have : l = [] := List.length_eq_zero_iff.1 (by omega)
    subst this
    simp
  | succ k ih =>
    cases l with
    | nil => simp
    | cons x xs =>
      rw [List.eraseDups_cons, List.nodup_cons]
      constructor
      · simp
      · apply ih
        have := List.length_filter_le (fun b => !b == x) xs
        simp only [List.length_cons] at hk
        omega

theorem length_uniqueCounts {n : Nat} (labels : Fin n → Int) :
    ((uniqueCounts (arrayList labels)).map Prod.snd).length = numRegions labels := by
  unfold uniqueCounts numRegions
  rw [List.length_map, List.length_map, ← List.toFinset_card_of_nodup (eraseDups_nodup _)]
  congr 1
  ext x
  simp [arrayList]

/-- The test `(counts < quorum).any()`. -/
theorem any_below_iff {n : Nat} (labels : Fin n → Int) (quorum : Option ℚ) :
    ((uniqueCounts (arrayList labels)).map Prod.snd).any (below quorum) = true ↔
      ¬ ∀ q ∈ quorum, MeetsQuorum labels q := by
  have hcard : ∀ v, (arrayList labels).count (labels v) =
      (Finset.univ.filter fun u => labels u = labels v).card := by
    intro v
    rw [count_arrayList, ← List.toFinset_card_of_nodup (whereEq_nodup _ _)]
    congr 1
    ext u
    simp [mem_whereEq]
  cases quorum with
  | none => simp [below]
  | some q =>
    simp only [Option.mem_def, Option.some.injEq, forall_eq']
    unfold MeetsQuorum uniqueCounts
    push Not
    simp only [List.map_map, List.any_map, List.any_eq_true, List.mem_eraseDups, Function.comp_apply,
      below, decide_eq_true_eq]
    constructor
    · rintro ⟨x, hx, hlt⟩
      obtain ⟨v, _, rfl⟩ := List.mem_map.1 hx
      exact ⟨v, by rwa [hcard] at hlt⟩
    · rintro ⟨v, hv⟩
      exact ⟨labels v, by simp [arrayList], by rwa [hcard]⟩

/-! ### Scores -/

/-- The labels in use are `0, …, k - 1`. -/
def Consecutive {n : Nat} (labels : Fin n → Int) : Prop :=
  ∀ l : Nat, l < numRegions labels → ∃ v, labels v = l

theorem treeLabels_consecutive {n : Nat} (msf : List (Edge n)) : Consecutive (treeLabels msf) := by
  intro l hl
  rw [numRegions_treeLabels] at hl
  obtain ⟨v, hv⟩ := compLabels_surj _ hl
  exact ⟨v, by unfold treeLabels; rw [hv]⟩

/-- The score of a single cluster. -/
def clusterScore (d : Metric) (S : SpanningForest) {n m : Nat} (data : Fin n → Row m)
    (labels : Fin n → Int) (l : Nat) : ℚ :=
  S.reduction (((whereEq labels (l : Int)).map data).map fun x =>
    d m x (S.center m ((whereEq labels (l : Int)).map data)))

/-- The score of a labelling without regard to the quorum. -/
def mapScore (d : Metric) (S : SpanningForest) {n m : Nat} (data : Fin n → Row m)
    (labels : Fin n → Int) : ℚ :=
  S.reduction ((List.range (numRegions labels)).map (clusterScore d S data labels))

theorem partScores_dissimilarity {d : Metric} {S : SpanningForest} (hS : S.metric = .dissimilarity d)
    {n m : Nat} (data : Fin n → Row m) (labels : Fin n → Int) (ls : List Nat)
    (h : ∀ l ∈ ls, ∃ v, labels v = (l : Int)) :
    partScores S data labels ls = .ok (ls.map (clusterScore d S data labels)) := by
  induction ls with
  | nil => rfl
  | cons l ls ih =>
    have hne : (whereEq labels (l : Int)).map data ≠ [] := by
      obtain ⟨v, hv⟩ := h l (by simp)
      have := mem_whereEq.2 hv
      intro h0
      rw [List.map_eq_nil_iff] at h0
      rw [h0] at this
      cases this
    unfold partScores
    rw [ih (fun l' hl' => h l' (by simp [hl']))]
    simp only [hS, SkMetric.cross, if_neg hne, Res.bind_ok, List.map_cons]
    rfl

theorem score_dissimilarity {d : Metric} {S : SpanningForest} (hS : S.metric = .dissimilarity d)
    {n m : Nat} (data : Fin n → Row m) (labels : Fin n → Int) (hl : Consecutive labels)
    (quorum : Option ℚ) [Decidable (∀ q ∈ quorum, MeetsQuorum labels q)] :
    score S data labels quorum =
      .ok (if ∀ q ∈ quorum, MeetsQuorum labels q then some (mapScore d S data labels) else none) := by
  unfold score
  by_cases hq : ∀ q ∈ quorum, MeetsQuorum labels q
  · have : ¬ ((uniqueCounts (arrayList labels)).map Prod.snd).any (below quorum) = true := by
      rw [any_below_iff]; exact not_not.2 hq
    simp only [this, if_pos hq, length_uniqueCounts]
    rw [partScores_dissimilarity hS]
    · rfl
    · intro l h
      exact hl l (List.mem_range.1 h)
  · have : ((uniqueCounts (arrayList labels)).map Prod.snd).any (below quorum) = true := by
      rw [any_below_iff]; exact hq
    simp only [this, if_neg hq, if_true]

theorem score_affinity {a : Metric} {g : ℚ → ℚ} {S : SpanningForest} (hS : S.metric = .affinity a g)
    {n m : Nat} (data : Fin n → Row m) (labels : Fin n → Int) (hn : 0 < n)
    (quorum : Option ℚ) [Decidable (∀ q ∈ quorum, MeetsQuorum labels q)] :
    score S data labels quorum =
      if ∀ q ∈ quorum, MeetsQuorum labels q then .raise .typeError else .ok none := by
  unfold score
  by_cases hq : ∀ q ∈ quorum, MeetsQuorum labels q
  · have : ¬ ((uniqueCounts (arrayList labels)).map Prod.snd).any (below quorum) = true := by
      rw [any_below_iff]; exact not_not.2 hq
    simp only [this, if_pos hq, length_uniqueCounts]
    have hpos : 0 < numRegions labels :=
      Finset.card_pos.2 ⟨labels ⟨0, hn⟩, Finset.mem_image_of_mem _ (Finset.mem_univ _)⟩
    obtain ⟨k, hk⟩ : ∃ k, numRegions labels = k + 1 := ⟨_, (Nat.succ_pred_eq_of_pos hpos).symm⟩
    rw [hk, List.range_succ_eq_map]
    simp [partScores, hS, SkMetric.cross]
  · have : ((uniqueCounts (arrayList labels)).map Prod.snd).any (below quorum) = true := by
      rw [any_below_iff]; exact hq
    simp only [this, if_neg hq, if_true]

/-! ### find_cut -/

/-- The clusters meet the quorum once the edge is removed. -/
def ValidCut {n : Nat} (quorum : Option ℚ) (msf : List (Edge n)) (e : Edge n) : Prop :=
  ∀ q ∈ quorum, MeetsQuorum (treeLabels (msf.erase e)) q

/-- The score of the forest without the edge. -/
def cutScore (d : Metric) (S : SpanningForest) {n m : Nat} (data : Fin n → Row m)
    (msf : List (Edge n)) (e : Edge n) : ℚ :=
  mapScore d S data (treeLabels (msf.erase e))

/-- An edge `find_cut` looks at. -/
def Candidate {n : Nat} (zero : Option ((Fin n → Int) × Int)) (e : Edge n) : Prop :=
  ∀ z ∈ zero, z.1 e.1 = z.2

/-- What `find_cut` answers when it has looked at the edges `done`. -/
def BestOf (d : Metric) (S : SpanningForest) {n m : Nat} (data : Fin n → Row m)
    (quorum : Option ℚ) (zero : Option ((Fin n → Int) × Int)) (msf done : List (Edge n)) :
    Deletion n → Prop
  | none => ∀ e ∈ done, Candidate zero e → ¬ ValidCut quorum msf e
  | some (e, s) => ValidCut quorum msf e ∧ Candidate zero e ∧ s = cutScore d S data msf e ∧
      ∃ pre post, done = pre ++ e :: post ∧
        (∀ e' ∈ pre, Candidate zero e' → ValidCut quorum msf e' → s < cutScore d S data msf e') ∧
        (∀ e' ∈ post, Candidate zero e' → ValidCut quorum msf e' → s ≤ cutScore d S data msf e')

theorem findCutLoop_dissimilarity {d : Metric} {S : SpanningForest}
    (hS : S.metric = .dissimilarity d) {n m : Nat} {msf : List (Edge n)} (hf : IsForest msf)
    (data : Fin n → Row m) (quorum : Option ℚ) (zero : Option ((Fin n → Int) × Int))
    (es done : List (Edge n)) (hes : es ⊆ msf) (best : Deletion n)
    (hb : BestOf d S data quorum zero msf done best) :
    ∃ best', findCutLoop S msf data quorum zero es best = .ok best' ∧
      BestOf d S data quorum zero msf (done ++ es) best' := by
  induction es generalizing done best with
  | nil => exact ⟨best, rfl, by simpa using hb⟩
  | cons e es ih =>
    have hem : e ∈ msf := hes (by simp)
    have hes' : es ⊆ msf := fun x hx => hes (by simp [hx])
    -- keeping `best`
    have keep : (Candidate zero e → ValidCut quorum msf e → ∃ e0 s0, best = some (e0, s0) ∧
        s0 ≤ cutScore d S data msf e) → BestOf d S data quorum zero msf (done ++ [e]) best := by
      intro h
      cases best with
      | none =>
        intro e' he' hc' hv'
        rcases List.mem_append.1 he' with h1 | h1
        · exact hb e' h1 hc' hv'
        · rw [List.mem_singleton] at h1
          subst h1
          obtain ⟨_, _, h2, _⟩ := h hc' hv'
          cases h2
      | some p =>
        obtain ⟨e0, s0⟩ := p
        obtain ⟨h1, h2, h3, pre, post, h4, h5, h6⟩ := hb
        refine ⟨h1, h2, h3, pre, post ++ [e], by rw [h4]; simp, h5, ?_⟩
        intro e' he' hc' hv'
        rcases List.mem_append.1 he' with h7 | h7
        · exact h6 e' h7 hc' hv'
        · rw [List.mem_singleton] at h7
          subst h7
          obtain ⟨_, _, h8, h9⟩ := h hc' hv'
          cases h8
          exact h9
    have fin : ∀ b, BestOf d S data quorum zero msf (done ++ [e]) b →
        ∃ best', findCutLoop S msf data quorum zero es b = .ok best' ∧
          BestOf d S data quorum zero msf (done ++ e :: es) best' := by
      intro b hb'
      obtain ⟨b', h1, h2⟩ := ih (done ++ [e]) hes' b hb'
      exact ⟨b', h1, by simpa using h2⟩
    unfold findCutLoop
    by_cases hc : Candidate zero e
    · have h0 : ¬ skips zero e = true := by
        cases zero with
        | none => simp [skips]
        | some z =>
          have := hc z rfl
          simpa [skips] using this
      rw [if_neg h0]
      have hn : ¬ nComponents (adjOf (msf.erase e)) ≤ nComponents (adjOf msf) := by
        rw [hf.nComponents_erase hem]; omega
      rw [if_neg hn]
      classical
      rw [score_dissimilarity hS data _ (treeLabels_consecutive _) quorum]
      simp only [Res.bind_ok]
      by_cases hv : ValidCut quorum msf e
      · unfold ValidCut at hv
        rw [if_pos hv]
        dsimp only
        change ∃ best', (if better (some (cutScore d S data msf e)) best = true then _ else _) = _ ∧ _
        split_ifs with hbt
        · apply fin
          refine ⟨hv, hc, rfl, done, [], rfl, ?_, by simp⟩
          intro e' he' hc' hv'
          cases best with
          | none => exact absurd hv' (hb e' he' hc')
          | some p =>
            obtain ⟨e0, s0⟩ := p
            obtain ⟨h1, h2, h3, pre, post, h4, h5, h6⟩ := hb
            simp only [better, decide_eq_true_eq] at hbt
            have : s0 ≤ cutScore d S data msf e' := by
              rw [h4] at he'
              rcases List.mem_append.1 he' with h7 | h7
              · exact (h5 e' h7 hc' hv').le
              · rcases List.mem_cons.1 h7 with h8 | h8
                · rw [h3, h8]
                · exact h6 e' h8 hc' hv'
            exact lt_of_lt_of_le hbt this
        · apply fin
          apply keep
          intro _ _
          cases best with
          | none => simp [better] at hbt
          | some p =>
            obtain ⟨e0, s0⟩ := p
            simp only [better, decide_eq_true_eq, not_lt] at hbt
            exact ⟨e0, s0, rfl, hbt⟩
      · unfold ValidCut at hv
        rw [if_neg hv]
        exact fin _ (keep fun _ hv' => absurd hv' hv)
    · have h0 : skips zero e = true := by
        cases zero with
        | none => exact absurd (fun z hz => by cases hz) hc
        | some z =>
          simp only [Candidate, Option.mem_def, Option.some.injEq, forall_eq'] at hc
          simpa [skips] using hc
      rw [if_pos h0]
      exact fin _ (keep fun hc' _ => absurd hc' hc)

theorem findCut_dissimilarity {d : Metric} {S : SpanningForest}
    (hS : S.metric = .dissimilarity d) {n m : Nat} {msf : List (Edge n)} (hf : IsForest msf)
    (data : Fin n → Row m) (quorum : Option ℚ) :
    ∃ best, findCut S msf data quorum none none = .ok best ∧
      BestOf d S data quorum none msf msf best := by
  obtain ⟨b, h1, h2⟩ := findCutLoop_dissimilarity hS hf data quorum none msf [] (fun _ h => h) none
    (fun e he => by cases he)
  exact ⟨b, h1, by simpa using h2⟩

/-- With an affinity no cut is ever evaluated successfully. -/
theorem findCutLoop_affinity {a : Metric} {g : ℚ → ℚ} {S : SpanningForest}
    (hS : S.metric = .affinity a g) {n m : Nat} {msf : List (Edge n)} (hf : IsForest msf)
    (data : Fin n → Row m) (quorum : Option ℚ) (es : List (Edge n)) (hes : es ⊆ msf) :
    ((∃ e ∈ es, ValidCut quorum msf e) →
      findCutLoop S msf data quorum none es none = .raise .typeError) ∧
    ((¬ ∃ e ∈ es, ValidCut quorum msf e) →
      findCutLoop S msf data quorum none es none = .ok none) := by
  classical
  induction es with
  | nil => simp [findCutLoop]
  | cons e es ih =>
    have hem : e ∈ msf := hes (by simp)
    have hn : ¬ nComponents (adjOf (msf.erase e)) ≤ nComponents (adjOf msf) := by
      rw [hf.nComponents_erase hem]; omega
    have h2 := ih (fun x hx => hes (by simp [hx]))
    unfold findCutLoop
    rw [if_neg (by simp [skips]), if_neg hn, score_affinity hS data _ (Fin.pos e.1) quorum]
    by_cases hv : ValidCut quorum msf e
    · have : ∃ e' ∈ e :: es, ValidCut quorum msf e' := ⟨e, by simp, hv⟩
      unfold ValidCut at hv
      rw [if_pos hv]
      exact ⟨fun _ => rfl, fun h => absurd this h⟩
    · have h1 : (∃ e' ∈ e :: es, ValidCut quorum msf e') ↔ ∃ e' ∈ es, ValidCut quorum msf e' := by
        simp [hv]
      unfold ValidCut at hv
      rw [if_neg hv, h1]
      exact h2

/-! ### The loop of fit -/

/-- A sequence of best cuts leading from one forest to another, with the entries of the trace. -/
inductive Pruned (d : Metric) (S : SpanningForest) {n m : Nat} (data : Fin n → Row m)
    (quorum : Option ℚ) :
    List (Edge n) → List ((Fin n → Int) × Deletion n) → List (Edge n) → Prop
  | refl (msf : List (Edge n)) : Pruned d S data quorum msf [] msf
  | step {msf : List (Edge n)} {e : Edge n} {s : ℚ} {tr : List ((Fin n → Int) × Deletion n)}
      {msf' : List (Edge n)} (hb : BestOf d S data quorum none msf msf (some (e, s)))
      (h : Pruned d S data quorum (msf.erase e) tr msf') :
      Pruned d S data quorum msf ((treeLabels (msf.erase e), some (e, s)) :: tr) msf'

theorem BestOf.mem {d : Metric} {S : SpanningForest} {n m : Nat} {data : Fin n → Row m}
    {quorum : Option ℚ} {zero : Option ((Fin n → Int) × Int)} {msf done : List (Edge n)}
    {e : Edge n} {s : ℚ} (h : BestOf d S data quorum zero msf done (some (e, s))) : e ∈ done := by
  obtain ⟨_, _, _, pre, post, h4, _⟩ := h
  rw [h4]; simp

theorem Pruned.sublist {d : Metric} {S : SpanningForest} {n m : Nat} {data : Fin n → Row m}
    {quorum : Option ℚ} {msf msf' : List (Edge n)} {tr : List ((Fin n → Int) × Deletion n)}
    (h : Pruned d S data quorum msf tr msf') : msf'.Sublist msf := by
  induction h with
  | refl => exact List.Sublist.refl _
  | step _ _ ih => exact ih.trans List.erase_sublist

theorem Pruned.isForest {d : Metric} {S : SpanningForest} {n m : Nat} {data : Fin n → Row m}
    {quorum : Option ℚ} {msf msf' : List (Edge n)} {tr : List ((Fin n → Int) × Deletion n)}
    (h : Pruned d S data quorum msf tr msf') (hf : IsForest msf) : IsForest msf' := by
  induction h with
  | refl => exact hf
  | step _ _ ih => exact ih (hf.erase _)

theorem Pruned.nComponents {d : Metric} {S : SpanningForest} {n m : Nat} {data : Fin n → Row m}
    {quorum : Option ℚ} {msf msf' : List (Edge n)} {tr : List ((Fin n → Int) × Deletion n)}
    (h : Pruned d S data quorum msf tr msf') (hf : IsForest msf) :
    nComponents (adjOf msf') = nComponents (adjOf msf) + tr.length := by
  induction h with
  | refl => rfl
  | step hb _ ih =>
    have h1 := hf.nComponents_erase hb.mem
    have h2 := ih (hf.erase _)
    simp only [List.length_cons]
    omega

theorem Pruned.meets {d : Metric} {S : SpanningForest} {n m : Nat} {data : Fin n → Row m}
    {quorum : Option ℚ} {msf msf' : List (Edge n)} {tr : List ((Fin n → Int) × Deletion n)}
    (h : Pruned d S data quorum msf tr msf')
    (hq : tr ≠ [] ∨ ∀ q ∈ quorum, MeetsQuorum (treeLabels msf) q) :
    ∀ q ∈ quorum, MeetsQuorum (treeLabels msf') q := by
  induction h with
  | refl => exact hq.resolve_left (by simp)
  | step hb _ ih => exact ih (Or.inr hb.1)

/-- The result of the loop of `fit`. -/
structure LoopDone (d : Metric) (S : SpanningForest) {n m : Nat} (data : Fin n → Row m)
    (quorum : Option ℚ) (target : Option Int) (trace : Bool) (msf : List (Edge n))
    (tr : List ((Fin n → Int) × Deletion n)) (f : Outcome n) : Prop where
  labels : f.labels = treeLabels f.forest
  steps : ∃ st, Pruned d S data quorum msf st f.forest ∧
    f.trace = (if trace then tr ++ st else tr)
  enough : fewer (nComponents (adjOf f.forest)) target = true →
    ∀ e ∈ f.forest, ¬ ValidCut quorum f.forest e
  notMore : f.forest = msf ∨ fewer (nComponents (adjOf f.forest) - 1) target = true

theorem pruneLoop_dissimilarity {d : Metric} {S : SpanningForest}
    (hS : S.metric = .dissimilarity d) {n m : Nat} (data : Fin n → Row m) (quorum : Option ℚ)
    (target : Option Int) (trace : Bool) (fuel : Nat) {msf : List (Edge n)} (hf : IsForest msf)
    (tr : List ((Fin n → Int) × Deletion n)) :
    (pruneLoop S data quorum target trace fuel msf tr).Post False (fuel ≤ msf.length)
      (LoopDone d S data quorum target trace msf tr) := by
  induction fuel generalizing msf tr with
  | zero => exact Nat.zero_le _
  | succ fuel ih =>
    unfold pruneLoop
    by_cases hk : fewer (nComponents (adjOf msf)) target = true
    · rw [if_pos hk]
      obtain ⟨best, h1, h2⟩ := findCut_dissimilarity hS hf data quorum
      rw [h1]
      simp only [Res.bind_ok]
      cases best with
      | none =>
        refine ⟨rfl, ⟨[], .refl _, by simp⟩, fun _ e he => h2 e he (fun _ hz => by cases hz), Or.inl rfl⟩
      | some p =>
        obtain ⟨e, s⟩ := p
        simp only [makeCut, Res.bind_ok]
        have he := h2.mem
        have hlen := List.length_erase_of_mem he
        have hpos := List.length_pos_of_mem he
        refine (ih (hf.erase e) _).mono (fun h => h) (fun h => by omega) ?_
        rintro f ⟨g1, ⟨st, g2, g3⟩, g4, g5⟩
        refine ⟨g1, ⟨_, .step h2 g2, ?_⟩, g4, Or.inr ?_⟩
        · rw [g3]
          cases trace <;> simp
        · rcases g5 with g5 | g5
          · rw [g5, hf.nComponents_erase he]
            exact hk
          · exact g5
    · rw [if_neg hk]
      exact ⟨rfl, ⟨[], .refl _, by simp⟩, fun h => absurd h hk, Or.inl rfl⟩

theorem pruneLoop_affinity {a : Metric} {g : ℚ → ℚ} {S : SpanningForest}
    (hS : S.metric = .affinity a g) {n m : Nat} (data : Fin n → Row m) (quorum : Option ℚ)
    (target : Option Int) (trace : Bool) (fuel : Nat) {msf : List (Edge n)} (hf : IsForest msf)
    (tr : List ((Fin n → Int) × Deletion n)) :
    ((fewer (nComponents (adjOf msf)) target = true ∧ ∃ e ∈ msf, ValidCut quorum msf e) →
      pruneLoop S data quorum target trace (fuel + 1) msf tr = .raise .typeError) ∧
    (¬ (fewer (nComponents (adjOf msf)) target = true ∧ ∃ e ∈ msf, ValidCut quorum msf e) →
      pruneLoop S data quorum target trace (fuel + 1) msf tr = .ok ⟨treeLabels msf, msf, tr⟩) := by
  obtain ⟨h1, h2⟩ := findCutLoop_affinity hS hf data quorum msf (fun _ h => h)
  unfold pruneLoop findCut
  constructor
  · rintro ⟨hk, hv⟩
    rw [if_pos hk]
    dsimp only
    rw [h1 hv]
    rfl
  · intro h
    by_cases hk : fewer (nComponents (adjOf msf)) target = true
    · rw [if_pos hk]
      dsimp only
      rw [h2 (fun hv => h ⟨hk, hv⟩)]
      rfl
    · rw [if_neg hk]

/-! ### fit -/

/-- The kernel used by `fit`. -/
def kernelOf (S : SpanningForest) {n : Nat} (data : Option (Σ m : Nat, Fin n → Row m)) :
    Fin n → Fin n → ℚ :=
  match data with
  | none => fun _ _ => 1
  | some ⟨_, data⟩ => S.metric.kernel data

/-- The data used by `fit`. -/
def dataOf {n : Nat} (data : Option (Σ m : Nat, Fin n → Row m)) : Σ m : Nat, Fin n → Row m :=
  data.getD ⟨1, fun _ _ => 1⟩

/-- The forest `fit` starts from. -/
def startForest (o : WeightOrder) (S : SpanningForest) {n : Nat} (W : Adj n)
    (data : Option (Σ m : Nat, Fin n → Row m)) : List (Edge n) :=
  spanningForest o (dissim W (kernelOf S data))

/-- The number of clusters `fit` aims at. -/
def aim (nClusters : Option Int) (islands : String) (k : Nat) : Option Int :=
  if k > 1 ∧ islands.toLower ≠ "ignore" then plus nClusters k else nClusters

theorem fit_eq (o : WeightOrder) (S : SpanningForest) {n : Nat} (fuel : Nat) (nClusters : Option Int)
    (W : Adj n) (data : Option (Σ m : Nat, Fin n → Row m)) (quorum : Option ℚ) (trace : Bool)
    (islands : String) :
    fit o S fuel nClusters W data quorum trace islands =
      fitKernel o S fuel nClusters W (kernelOf S data) (dataOf data).2 quorum trace islands := by
  cases data <;> rfl

/-- The borders between areas with a dissimilarity other than zero. -/
def active (S : SpanningForest) {n : Nat} (W : Adj n) (data : Option (Σ m : Nat, Fin n → Row m)) :
    Adj n := fun i j => W i j && decide (kernelOf S data i j ≠ 0)

theorem startForest_spec (o : WeightOrder) (S : SpanningForest) {n : Nat} (W : Adj n)
    (data : Option (Σ m : Nat, Fin n → Row m)) :
    IsForest (startForest o S W data) ∧
      (∀ e ∈ startForest o S W data, active S W data e.1 e.2 = true) ∧
      (∀ a b, SameIsland (adjOf (startForest o S W data)) a b ↔ SameIsland (active S W data) a b) ∧
      nComponents (adjOf (startForest o S W data)) = nComponents (active S W data) := by
  obtain ⟨h1, h2, h3, _⟩ := spanningForest_spec o (dissim W (kernelOf S data))
  have ha : (fun i j => decide (dissim W (kernelOf S data) i j ≠ 0)) = active S W data := by
    funext i j
    unfold dissim active
    cases W i j <;> simp
  rw [ha] at h3
  refine ⟨h1, ?_, h3, ?_⟩
  · intro e he
    rw [← ha]
    simpa using h2 e he
  · rw [← card_image_eq_nComponents (active S W data)
      (compRepr (adjOf (startForest o S W data))) (fun a b => by rw [compRepr_eq_iff]; exact h3 a b),
      card_image_eq_nComponents _ _ (compRepr_eq_iff _)]

/-- `fit` in one equation. -/
theorem fit_pruneLoop (o : WeightOrder) (S : SpanningForest) {n : Nat} (fuel : Nat)
    (nClusters : Option Int) (W : Adj n) (data : Option (Σ m : Nat, Fin n → Row m))
    (quorum : Option ℚ) (trace : Bool) (islands : String) :
    ((1 < nComponents (active S W data) ∧
        ¬ ∀ q ∈ quorum, MeetsQuorum (treeLabels (startForest o S W data)) q) →
      fit o S fuel nClusters W data quorum trace islands =
        .raise (.valueError "Islands must be larger than the quorum.")) ∧
    (¬ (1 < nComponents (active S W data) ∧
        ¬ ∀ q ∈ quorum, MeetsQuorum (treeLabels (startForest o S W data)) q) →
      fit o S fuel nClusters W data quorum trace islands =
        pruneLoop S (dataOf data).2 quorum (aim nClusters islands (nComponents (active S W data)))
          trace fuel (startForest o S W data)
          (if trace then [(treeLabels (startForest o S W data), none)] else [])) := by
  have hk := (startForest_spec o S W data).2.2.2
  rw [fit_eq]
  unfold fitKernel
  rw [← any_below_iff, ← hk]
  change _ ∧ _
  dsimp only
  rw [show spanningForest o (dissim W (kernelOf S data)) = startForest o S W data from rfl]
  by_cases h1 : 1 < nComponents (adjOf (startForest o S W data))
  · rw [if_pos h1]
    by_cases h2 : ((uniqueCounts (arrayList (treeLabels (startForest o S W data)))).map Prod.snd).any
        (below quorum) = true
    · rw [if_pos h2]
      exact ⟨fun _ => rfl, fun h => absurd ⟨h1, h2⟩ h⟩
    · rw [if_neg h2]
      refine ⟨fun h => absurd h.2 h2, fun _ => ?_⟩
      unfold aim
      by_cases h3 : islands.toLower = "ignore"
      · simp [h3]
      · simp [h3, h1]
  · rw [if_neg h1]
    refine ⟨fun h => absurd h.1 h1, fun _ => ?_⟩
    unfold aim
    rw [if_neg (fun h : _ ∧ _ => h1 h.1)]

theorem startForest_length (o : WeightOrder) (S : SpanningForest) {n : Nat} (W : Adj n)
    (data : Option (Σ m : Nat, Fin n → Row m)) :
    nComponents (active S W data) + (startForest o S W data).length = n := by
  have h := startForest_spec o S W data
  rw [← h.2.2.2]
  exact isForest_card h.1

/-- What is known about a completed call of `fit`. -/
theorem fit_ok {o : WeightOrder} {S : SpanningForest} {n : Nat} {fuel : Nat}
    {nClusters : Option Int} {W : Adj n} {data : Option (Σ m : Nat, Fin n → Row m)}
    {quorum : Option ℚ} {trace : Bool} {islands : String} {f : Outcome n}
    (h : fit o S fuel nClusters W data quorum trace islands = .ok f) :
    ∃ d, (∀ d', S.metric = .dissimilarity d' → d = d') ∧
      LoopDone d S (dataOf data).2 quorum (aim nClusters islands (nComponents (active S W data))) trace
        (startForest o S W data)
        (if trace then [(treeLabels (startForest o S W data), none)] else []) f ∧
      (1 < nComponents (active S W data) →
        ∀ q ∈ quorum, MeetsQuorum (treeLabels (startForest o S W data)) q) := by
  obtain ⟨h1, h2⟩ := fit_pruneLoop o S fuel nClusters W data quorum trace islands
  by_cases hi : 1 < nComponents (active S W data) ∧
        ¬ ∀ q ∈ quorum, MeetsQuorum (treeLabels (startForest o S W data)) q
  · rw [h1 hi] at h; cases h
  · rw [h2 hi] at h
    have hi' : 1 < nComponents (active S W data) →
        ∀ q ∈ quorum, MeetsQuorum (treeLabels (startForest o S W data)) q :=
      fun hk => by by_contra hc; exact hi ⟨hk, hc⟩
    have hf := (startForest_spec o S W data).1
    cases hm : S.metric with
    | dissimilarity d =>
      exact ⟨d, fun d' hd' => by cases hd'; rfl,
        (pruneLoop_dissimilarity hm _ quorum _ trace fuel hf _).ok h, hi'⟩
    | affinity a g =>
      refine ⟨fun _ _ _ => 0, (by intro d' hd'; cases hd'), ?_, hi'⟩
      cases fuel with
      | zero => cases h
      | succ fuel =>
        obtain ⟨h3, h4⟩ := pruneLoop_affinity hm (dataOf data).2 quorum
          (aim nClusters islands (nComponents (active S W data))) trace fuel hf
          (if trace then [(treeLabels (startForest o S W data), none)] else [])
        by_cases hv : fewer (nComponents (adjOf (startForest o S W data)))
            (aim nClusters islands (nComponents (active S W data))) = true ∧
            ∃ e ∈ startForest o S W data, ValidCut quorum (startForest o S W data) e
        · rw [h3 hv] at h; cases h
        · rw [h4 hv] at h
          cases h
          refine ⟨rfl, ⟨[], .refl _, by simp⟩, ?_, Or.inl rfl⟩
          intro hk e he hve
          exact hv ⟨hk, e, he, hve⟩

theorem fit_not_timeout (o : WeightOrder) (S : SpanningForest) {n : Nat} (fuel : Nat)
    (nClusters : Option Int) (W : Adj n) (data : Option (Σ m : Nat, Fin n → Row m))
    (quorum : Option ℚ) (trace : Bool) (islands : String) (hfuel : n < fuel) :
    fit o S fuel nClusters W data quorum trace islands ≠ .timeout := by
  obtain ⟨h1, h2⟩ := fit_pruneLoop o S fuel nClusters W data quorum trace islands
  by_cases hi : 1 < nComponents (active S W data) ∧
        ¬ ∀ q ∈ quorum, MeetsQuorum (treeLabels (startForest o S W data)) q
  · rw [h1 hi]; simp
  · rw [h2 hi]
    have hf := (startForest_spec o S W data).1
    have hlen := startForest_length o S W data
    cases hm : S.metric with
    | dissimilarity d =>
      have := pruneLoop_dissimilarity hm (dataOf data).2 quorum
        (aim nClusters islands (nComponents (active S W data))) trace fuel hf
        (if trace then [(treeLabels (startForest o S W data), none)] else [])
      intro ht
      rw [ht] at this
      have : fuel ≤ (startForest o S W data).length := this
      omega
    | affinity a g =>
      cases fuel with
      | zero => omega
      | succ fuel =>
        obtain ⟨h3, h4⟩ := pruneLoop_affinity hm (dataOf data).2 quorum
          (aim nClusters islands (nComponents (active S W data))) trace fuel hf
          (if trace then [(treeLabels (startForest o S W data), none)] else [])
        by_cases hv : fewer (nComponents (adjOf (startForest o S W data)))
            (aim nClusters islands (nComponents (active S W data))) = true ∧
            ∃ e ∈ startForest o S W data, ValidCut quorum (startForest o S W data) e
        · rw [h3 hv]; simp
        · rw [h4 hv]; simp

theorem fit_raise {o : WeightOrder} {S : SpanningForest} {n : Nat} {fuel : Nat}
    {nClusters : Option Int} {W : Adj n} {data : Option (Σ m : Nat, Fin n → Row m)}
    {quorum : Option ℚ} {trace : Bool} {islands : String} {x : Exc}
    (h : fit o S fuel nClusters W data quorum trace islands = .raise x) :
    (x = .valueError "Islands must be larger than the quorum." ∧
      1 < nComponents (active S W data) ∧
      ¬ ∀ q ∈ quorum, MeetsQuorum (treeLabels (startForest o S W data)) q) ∨
    (x = .typeError ∧ ∃ a g, S.metric = .affinity a g) := by
  obtain ⟨h1, h2⟩ := fit_pruneLoop o S fuel nClusters W data quorum trace islands
  by_cases hi : 1 < nComponents (active S W data) ∧
        ¬ ∀ q ∈ quorum, MeetsQuorum (treeLabels (startForest o S W data)) q
  · rw [h1 hi] at h
    cases h
    exact Or.inl ⟨rfl, hi⟩
  · rw [h2 hi] at h
    have hf := (startForest_spec o S W data).1
    cases hm : S.metric with
    | dissimilarity d =>
      have := pruneLoop_dissimilarity hm (dataOf data).2 quorum
        (aim nClusters islands (nComponents (active S W data))) trace fuel hf
        (if trace then [(treeLabels (startForest o S W data), none)] else [])
      rw [h] at this
      exact this.elim
    | affinity a g =>
      right
      refine ⟨?_, a, g, rfl⟩
      cases fuel with
      | zero => cases h
      | succ fuel =>
        obtain ⟨h3, h4⟩ := pruneLoop_affinity hm (dataOf data).2 quorum
          (aim nClusters islands (nComponents (active S W data))) trace fuel hf
          (if trace then [(treeLabels (startForest o S W data), none)] else [])
        by_cases hv : fewer (nComponents (adjOf (startForest o S W data)))
            (aim nClusters islands (nComponents (active S W data))) = true ∧
            ∃ e ∈ startForest o S W data, ValidCut quorum (startForest o S W data) e
        · rw [h3 hv] at h; cases h; rfl
        · rw [h4 hv] at h; cases h

/-! ### Splitting a cluster -/

/-- `MeetsQuorum` depends on the partition only. -/
theorem meetsQuorum_congr {V L L' : Type} [Fintype V] [DecidableEq L] [DecidableEq L']
    {f : V → L} {g : V → L'} (h : ∀ a b, f a = f b ↔ g a = g b) {q : ℚ} :
    MeetsQuorum f q ↔ MeetsQuorum g q := by
  unfold MeetsQuorum
  have : ∀ v, (Finset.univ.filter fun u => f u = f v) = Finset.univ.filter fun u => g u = g v := by
    intro v
    ext u
    simp [h]
  simp only [this]

/-- The number of regions depends on the partition only. -/
theorem numRegions_congr {V L L' : Type} [Fintype V] [DecidableEq L] [DecidableEq L']
    {f : V → L} {g : V → L'} (h : ∀ a b, f a = f b ↔ g a = g b) : numRegions f = numRegions g := by
  unfold numRegions
  apply Finset.card_bij (fun x hx => g (Finset.mem_image.1 hx).choose)
  · intro x hx
    exact Finset.mem_image_of_mem _ (Finset.mem_univ _)
  · intro x hx y hy hxy
    rw [← h] at hxy
    rw [← (Finset.mem_image.1 hx).choose_spec.2, ← (Finset.mem_image.1 hy).choose_spec.2, hxy]
  · intro y hy
    obtain ⟨v, _, rfl⟩ := Finset.mem_image.1 hy
    refine ⟨f v, Finset.mem_image_of_mem _ (Finset.mem_univ _), ?_⟩
    have hx : ∃ a ∈ Finset.univ, f a = f v := ⟨v, Finset.mem_univ _, rfl⟩
    exact (h _ _).1 hx.choose_spec.2

theorem splitsOne_erase {n : Nat} {msf : List (Edge n)} (hf : IsForest msf) {e : Edge n}
    (he : e ∈ msf) : SplitsOne (treeLabels (msf.erase e)) (treeLabels msf) := by
  -- the islands of the forest arise from those without the edge by merging its two ends
  have hm : ∀ a b, mergeClass (compRepr (adjOf (msf.erase e))) e a =
      mergeClass (compRepr (adjOf (msf.erase e))) e b ↔ treeLabels msf a = treeLabels msf b := by
    intro a b
    rw [merge_separates (compRepr_eq_iff _) e, treeLabels_eq_iff, adjOf_congr (mem_cons_erase he)]
  have hc : ∀ a b, compRepr (adjOf (msf.erase e)) a = compRepr (adjOf (msf.erase e)) b ↔
      treeLabels (msf.erase e) a = treeLabels (msf.erase e) b := by
    intro a b
    rw [compRepr_eq_iff, treeLabels_eq_iff]
  have hne : compRepr (adjOf (msf.erase e)) e.1 ≠ compRepr (adjOf (msf.erase e)) e.2 := by
    rw [Ne, compRepr_eq_iff]; exact hf.2 e he
  refine ⟨?_, e.1, e.2, ?_, ?_, ?_, ?_⟩
  · intro a b h
    rw [← hc] at h
    rw [← hm]
    unfold mergeClass
    rw [h]
  · rw [← hm]; unfold mergeClass; simp [hne.symm]
  · rw [Ne, ← hc]; exact hne
  · intro a b hab hav
    rw [← hm] at hab
    rw [Ne, ← hm] at hav
    rw [← hc]
    unfold mergeClass at hab hav
    rw [if_pos rfl] at hav
    by_cases h1 : compRepr (adjOf (msf.erase e)) a = compRepr (adjOf (msf.erase e)) e.1
    · rw [if_pos h1] at hav
      exact absurd rfl hav
    · rw [if_neg h1] at hab hav
      by_cases h2 : compRepr (adjOf (msf.erase e)) b = compRepr (adjOf (msf.erase e)) e.1
      · rw [if_pos h2] at hab
        exact absurd hab hav
      · rwa [if_neg h2] at hab
  · intro a hav
    rw [← hm] at hav
    rw [← hc, ← hc]
    unfold mergeClass at hav
    rw [if_pos rfl] at hav
    split_ifs at hav with h1
    · exact Or.inl h1
    · exact Or.inr hav

theorem treeLabels_separates {n : Nat} (msf : List (Edge n)) :
    Separates (treeLabels msf) (adjOf msf) := treeLabels_eq_iff msf

theorem separates_congr {V L L' : Type} {f : V → L} {g : V → L'} {adj : V → V → Bool}
    (hf : Separates f adj) (hg : Separates g adj) (a b : V) : f a = f b ↔ g a = g b := by
  rw [hf, hg]

/-- Consecutive entries of the trace. -/
def Cut {n : Nat} (x y : (Fin n → Int) × Deletion n) : Prop :=
  SplitsOne y.1 x.1 ∧ numRegions y.1 = numRegions x.1 + 1

theorem Pruned.isChain {d : Metric} {S : SpanningForest} {n m : Nat} {data : Fin n → Row m}
    {quorum : Option ℚ} {msf msf' : List (Edge n)} {tr : List ((Fin n → Int) × Deletion n)}
    (h : Pruned d S data quorum msf tr msf') (hf : IsForest msf) (x : Deletion n) :
    List.IsChain Cut ((treeLabels msf, x) :: tr) ∧
      (((treeLabels msf, x) :: tr).getLast (by simp)).1 = treeLabels msf' := by
  induction h generalizing x with
  | refl => simp
  | step hb _ ih =>
    obtain ⟨h1, h2⟩ := ih (hf.erase _) (some (_, _))
    constructor
    · rw [List.isChain_cons_cons]
      refine ⟨⟨splitsOne_erase hf hb.mem, ?_⟩, h1⟩
      rw [numRegions_treeLabels, numRegions_treeLabels, hf.nComponents_erase hb.mem]
    · rw [List.getLast_cons (by simp)]
      exact h2

/-- Fewer trees are too few as well. -/
theorem fewer_mono {k k' : Nat} (h : k ≤ k') {target : Option Int} (hk : fewer k' target = true) :
    fewer k target = true := by
  cases target with
  | none => rfl
  | some t =>
    simp only [fewer, decide_eq_true_eq] at hk ⊢
    omega

/-! ### Scores as sums -/

/-- The areas with a label in ascending order, as a sorted finite set. -/
theorem whereEq_eq_sort {n : Nat} (labels : Fin n → Int) (l : Int) :
    whereEq labels l = (Finset.univ.filter fun u => labels u = l).sort (· ≤ ·) := by
  have h1 : (whereEq labels l).Pairwise (· ≤ ·) :=
    ((List.pairwise_le_finRange n).filter _)
  refine List.Perm.eq_of_pairwise (le := (· ≤ ·)) (fun a b _ _ => le_antisymm) h1
    (Finset.pairwise_sort _ _) ?_
  rw [List.perm_ext_iff_of_nodup (whereEq_nodup _ _) (Finset.sort_nodup _ _)]
  intro a
  simp [mem_whereEq]

theorem mapScore_sum (d : Metric) {S : SpanningForest} (hr : S.reduction = List.sum)
    {n m : Nat} (data : Fin n → Row m) {labels : Fin n → Int} (hl : Consecutive labels) :
    mapScore d S data labels = sumOverRegions labels fun C =>
      ∑ u ∈ C, d m (data u) (S.center m ((C.sort (· ≤ ·)).map data)) := by
  unfold mapScore sumOverRegions
  rw [hr]
  have himg : Finset.univ.image labels =
      (Finset.range (numRegions labels)).image fun l : Nat => (l : Int) := by
    symm
    apply Finset.eq_of_subset_of_card_le
    · intro x hx
      obtain ⟨l, hl', rfl⟩ := Finset.mem_image.1 hx
      obtain ⟨v, hv⟩ := hl l (Finset.mem_range.1 hl')
      exact Finset.mem_image.2 ⟨v, Finset.mem_univ _, hv⟩
    · rw [Finset.card_image_of_injective _ Nat.cast_injective, Finset.card_range]
      exact le_refl _
  rw [himg, Finset.sum_image (fun a _ b _ h => by exact_mod_cast h)]
  have hlist : ∀ g : Nat → ℚ, ∑ l ∈ Finset.range (numRegions labels), g l =
      ((List.range (numRegions labels)).map g).sum := fun g => rfl
  rw [hlist]
  congr 1
  apply List.map_congr_left
  intro l _
  unfold clusterScore
  rw [hr, List.map_map, whereEq_eq_sort]
  dsimp only
  rw [← Finset.sum_map_toList]
  apply List.Perm.sum_eq
  apply List.Perm.map
  exact Finset.sort_perm_toList _ _

/-! ### Splitting does not worsen a sum of distances to best centres -/

/-- A sum over regions of sums over areas. -/
theorem sumOverRegions_sum {V L : Type} [Fintype V] [DecidableEq L] (labels : V → L)
    (h : Finset V → V → ℚ) :
    (sumOverRegions labels fun C => ∑ u ∈ C, h C u) =
      ∑ u, h (Finset.univ.filter fun v => labels v = labels u) u := by
  classical
  unfold sumOverRegions
  rw [← Finset.sum_fiberwise_of_maps_to (s := Finset.univ) (t := Finset.univ.image labels)
    (g := labels) (fun u hu => Finset.mem_image_of_mem _ hu)]
  apply Finset.sum_congr rfl
  intro r _
  apply Finset.sum_congr rfl
  intro u hu
  rw [(Finset.mem_filter.1 hu).2]

theorem mapScore_refines (d : Metric) {S : SpanningForest} (hr : S.reduction = List.sum)
    {n m : Nat} (data : Fin n → Row m)
    (hc : ∀ rows : List (Row m), ∀ c : Row m,
      (rows.map fun x => d m x (S.center m rows)).sum ≤ (rows.map fun x => d m x c).sum)
    {fine coarse : Fin n → Int} (hf : Consecutive fine) (hcs : Consecutive coarse)
    (href : Refines fine coarse) : mapScore d S data fine ≤ mapScore d S data coarse := by
  rw [mapScore_sum d hr data hf, mapScore_sum d hr data hcs]
  rw [sumOverRegions_sum coarse fun C u => d m (data u) (S.center m ((C.sort (· ≤ ·)).map data))]
  have key : (sumOverRegions fine fun C => ∑ u ∈ C, d m (data u)
      (S.center m (((Finset.univ.filter fun v => coarse v = coarse u).sort (· ≤ ·)).map data))) =
      ∑ u, d m (data u)
      (S.center m (((Finset.univ.filter fun v => coarse v = coarse u).sort (· ≤ ·)).map data)) :=
    sumOverRegions_sum fine fun _ u => d m (data u)
      (S.center m (((Finset.univ.filter fun v => coarse v = coarse u).sort (· ≤ ·)).map data))
  rw [← key]
  unfold sumOverRegions
  apply Finset.sum_le_sum
  intro r hr'
  obtain ⟨v, _, rfl⟩ := Finset.mem_image.1 hr'
  have hsame : ∀ u ∈ Finset.univ.filter fun u => fine u = fine v, coarse u = coarse v := by
    intro u hu
    exact href _ _ (Finset.mem_filter.1 hu).2
  have h1 := hc (((Finset.univ.filter fun u => fine u = fine v).sort (· ≤ ·)).map data)
    (S.center m (((Finset.univ.filter fun u => coarse u = coarse v).sort (· ≤ ·)).map data))
  rw [List.map_map, List.map_map] at h1
  have hsum : ∀ g : Fin n → ℚ, (((Finset.univ.filter fun u => fine u = fine v).sort (· ≤ ·)).map g).sum =
      ∑ u ∈ Finset.univ.filter fun u => fine u = fine v, g u := by
    intro g
    rw [← Finset.sum_map_toList]
    exact ((Finset.sort_perm_toList _ _).map g).sum_eq
  rw [hsum, hsum] at h1
  refine h1.trans (le_of_eq ?_)
  apply Finset.sum_congr rfl
  intro u hu
  simp only [Function.comp_apply, hsame u hu]

/-- The scores recorded in the trace. -/
theorem Pruned.scores {d : Metric} {S : SpanningForest} {n m : Nat} {data : Fin n → Row m}
    {quorum : Option ℚ} {msf msf' : List (Edge n)} {tr : List ((Fin n → Int) × Deletion n)}
    (h : Pruned d S data quorum msf tr msf') :
    ∀ p ∈ tr, Consecutive p.1 ∧ ∃ e, p.2 = some (e, mapScore d S data p.1) ∧ e ∈ msf := by
  induction h with
  | refl => simp
  | @step msf e s tr msf' hb _ ih =>
    intro p hp
    rcases List.mem_cons.1 hp with rfl | hp
    · refine ⟨treeLabels_consecutive _, e, ?_, hb.mem⟩
      rw [hb.2.2.1]
      rfl
    · obtain ⟨h1, e', h2, h3⟩ := ih p hp
      exact ⟨h1, e', h2, List.mem_of_mem_erase h3⟩

end Region.Skater
