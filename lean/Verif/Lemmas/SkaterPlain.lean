import Verif.Lemmas.Skater
/-
SKATER on data that do not tell the areas apart.
-/
namespace Region.Skater

open Spec

/-- Equal rows are at distance zero from their centre, and zeros are reduced to zero. -/
structure Indifferent (d : Metric) (S : SpanningForest) : Prop where
  metric : S.metric = .dissimilarity d
  self : ∀ (m : Nat) (x : Row m), d m x x = 0
  center : ∀ (m : Nat) (x : Row m) (k : Nat), S.center m (List.replicate (k + 1) x) = x
  reduction : ∀ k : Nat, S.reduction (List.replicate (k + 1) 0) = 0

section
variable {d : Metric} {S : SpanningForest} (hI : Indifferent d S) {n m : Nat} (x : Row m)
include hI

theorem clusterScore_plain {labels : Fin n → Int} {l : Nat} (hl : ∃ v, labels v = l) :
    clusterScore d S (fun _ => x) labels l = 0 := by
  unfold clusterScore
  obtain ⟨v, hv⟩ := hl
  have hpos := List.length_pos_of_mem (mem_whereEq.2 hv)
  obtain ⟨k, hk⟩ : ∃ k, (whereEq labels (l : Int)).length = k + 1 :=
    ⟨_, (Nat.succ_pred_eq_of_pos hpos).symm⟩
  rw [List.map_const', hk, hI.center, List.map_replicate, hI.self, hI.reduction]

theorem mapScore_plain (hn : 0 < n) {labels : Fin n → Int} (hl : Consecutive labels) :
    mapScore d S (fun _ => x) labels = 0 := by
  unfold mapScore
  have hpos : 0 < numRegions labels :=
    Finset.card_pos.2 ⟨labels ⟨0, hn⟩, Finset.mem_image_of_mem _ (Finset.mem_univ _)⟩
  obtain ⟨k, hk⟩ : ∃ k, numRegions labels = k + 1 := ⟨_, (Nat.succ_pred_eq_of_pos hpos).symm⟩
  have : (List.range (numRegions labels)).map (clusterScore d S (fun _ => x) labels) =
      List.replicate (k + 1) 0 := by
    rw [List.eq_replicate_iff]
    refine ⟨by simp [hk], ?_⟩
    intro b hb
    obtain ⟨l, h1, rfl⟩ := List.mem_map.1 hb
    exact clusterScore_plain hI x (hl l (List.mem_range.1 h1))
  rw [this, hI.reduction]

theorem cutScore_plain {msf : List (Edge n)} (e : Edge n) :
    cutScore d S (fun _ => x) msf e = 0 :=
  mapScore_plain hI x (Nat.zero_lt_of_lt e.1.2) (treeLabels_consecutive _)

/-- The best cut is the first one allowed, and its score is zero. -/
theorem BestOf.plain {quorum : Option ℚ} {zero : Option ((Fin n → Int) × Int)}
    {msf done : List (Edge n)} {e : Edge n} {s : ℚ}
    (h : BestOf d S (fun _ => x) quorum zero msf done (some (e, s))) :
    s = 0 ∧ ValidCut quorum msf e ∧ Candidate zero e ∧ ∃ pre post, done = pre ++ e :: post ∧
      ∀ e' ∈ pre, Candidate zero e' → ¬ ValidCut quorum msf e' := by
  obtain ⟨h1, h2, h3, pre, post, h4, h5, _⟩ := h
  rw [cutScore_plain hI] at h3
  refine ⟨h3, h1, h2, pre, post, h4, ?_⟩
  intro e' he' hc hv
  have := h5 e' he' hc hv
  rw [cutScore_plain hI, h3] at this
  exact lt_irrefl _ this

/-- Without a quorum the edges are cut in their order. -/
theorem Pruned.plain {msf msf' : List (Edge n)} {tr : List ((Fin n → Int) × Deletion n)}
    (h : Pruned d S (fun _ => x) none msf tr msf') :
    msf' = msf.drop tr.length ∧ tr.map Prod.snd = (msf.take tr.length).map (fun e => some (e, 0)) := by
  induction h with
  | refl => simp
  | @step msf e s tr msf' hb _ ih =>
    obtain ⟨rfl, -, -, pre, post, h4, h5⟩ := hb.plain hI x
    have hpre : pre = [] := by
      cases pre with
      | nil => rfl
      | cons a pre =>
        exact absurd (fun q hq => by cases hq) (h5 a (by simp) (fun z hz => by cases hz))
    subst hpre
    rw [List.nil_append] at h4
    subst h4
    rw [List.erase_cons_head] at ih
    obtain ⟨i1, i2⟩ := ih
    refine ⟨by simpa using i1, ?_⟩
    simp only [List.map_cons, List.length_cons, List.take_succ_cons]
    rw [i2]
end

end Region.Skater
