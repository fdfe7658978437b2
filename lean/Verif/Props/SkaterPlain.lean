import Verif.Lemmas.SkaterPlain
import Verif.Props.SkaterForest
/-
Property theorem C102: SKATER without data.
-/
namespace Region.Props

open Region Spec Skater

set_option synthInstance.maxSize 2000

/-- The default arguments: Manhattan distances, means and sums. -/
theorem indifferent_default : Indifferent (fun _ => manhattan) .default where
  metric := rfl
  self m x := by simp [manhattan]
  center m x k := by
    funext i
    have : ((k : ℚ) + 1) ≠ 0 := by positivity
    simp [SpanningForest.default, meanRow, List.map_replicate, List.sum_replicate]
    field_simp
  reduction k := by simp [SpanningForest.default, List.sum_replicate]

section
variable {d : Metric} {S : SpanningForest} (hI : Indifferent d S) {n : Nat}
include hI

/-- C102: on every forest `find_cut` without data answers with the first edge, in the order of the matrix,
whose removal meets the quorum, and with the score 0; it finds none only if there is none. -/
theorem c102_find_cut {msf : List (Edge n)} (hf : IsForest msf) (quorum : Option ℚ) :
    (∃ e pre post, findCutNone S msf quorum none none = .ok (some (e, 0)) ∧ msf = pre ++ e :: post ∧
      (∀ q ∈ quorum, MeetsQuorum (treeLabels (msf.erase e)) q) ∧
      ∀ e' ∈ pre, ∃ q ∈ quorum, ¬ MeetsQuorum (treeLabels (msf.erase e')) q) ∨
    (findCutNone S msf quorum none none = .ok none ∧
      ∀ e ∈ msf, ∃ q ∈ quorum, ¬ MeetsQuorum (treeLabels (msf.erase e)) q) := by
  have hno : ∀ e, ¬ ValidCut quorum msf e → ∃ q ∈ quorum, ¬ MeetsQuorum (treeLabels (msf.erase e)) q := by
    intro e he
    unfold ValidCut at he
    push Not at he
    exact he
  obtain ⟨best, h1, h2⟩ := findCut_dissimilarity hI.metric hf (m := n) (fun _ _ => 1) quorum
  match best, h1, h2 with
  | none, h1, h2 => exact .inr ⟨h1, fun e he => hno e (h2 e he fun z hz => by cases hz)⟩
  | some (e, s), h1, h2 =>
    obtain ⟨rfl, g1, -, pre, post, g2, g3⟩ := h2.plain hI
    exact .inl ⟨e, pre, post, h1, g2, g1, fun e' he' => hno e' (g3 e' he' fun z hz => by cases hz)⟩

/-- C102: the same within the target cluster. -/
theorem c102_find_cut_target {msf : List (Edge n)} (hf : IsForest msf) (quorum : Option ℚ)
    (labels : Fin n → Int) (target : Int) :
    (∃ e pre post, findCutNone S msf quorum (some labels) (some target) = .ok (some (e, 0)) ∧
      msf = pre ++ e :: post ∧ labels e.1 = target ∧
      (∀ q ∈ quorum, MeetsQuorum (treeLabels (msf.erase e)) q) ∧
      ∀ e' ∈ pre, labels e'.1 = target → ∃ q ∈ quorum, ¬ MeetsQuorum (treeLabels (msf.erase e')) q) ∨
    (findCutNone S msf quorum (some labels) (some target) = .ok none ∧
      ∀ e ∈ msf, labels e.1 = target → ∃ q ∈ quorum, ¬ MeetsQuorum (treeLabels (msf.erase e)) q) := by
  have hno : ∀ e, ¬ ValidCut quorum msf e → ∃ q ∈ quorum, ¬ MeetsQuorum (treeLabels (msf.erase e)) q := by
    intro e he
    unfold ValidCut at he
    push Not at he
    exact he
  have hcand : ∀ e : Edge n, labels e.1 = target → Candidate (some (labels, target)) e := by
    intro e he z hz
    cases hz
    exact he
  obtain ⟨best, h1, h2⟩ := findCutLoop_dissimilarity hI.metric hf (m := n) (fun _ _ => 1) quorum
    (some (labels, target)) msf [] (fun _ h => h) none (fun e he => by cases he)
  rw [List.nil_append] at h2
  match best, h1, h2 with
  | none, h1, h2 => exact .inr ⟨h1, fun e he hl => hno e (h2 e he (hcand e hl))⟩
  | some (e, s), h1, h2 =>
    obtain ⟨rfl, g1, g0, pre, post, g2, g3⟩ := h2.plain hI
    exact .inl ⟨e, pre, post, h1, g2, g0 _ rfl, g1, fun e' he' hl => hno e' (g3 e' he' (hcand e' hl))⟩

/-- What `fit` without data and quorum does, in terms of the forest it starts from. -/
theorem fit_plain {o : WeightOrder} {fuel : Nat} {a : Option Int} {W : Adj n} {trace : Bool}
    {islands : String} {f : Outcome n} (hf : fit o S fuel a W none none trace islands = .ok f) :
    ∃ k, f.forest = (startForest o S W none).drop k ∧
      numRegions f.labels = nComponents (active S W none) + k ∧
      f.trace.map Prod.snd = (if trace then
        none :: ((startForest o S W none).take k).map (fun e => some (e, 0)) else []) := by
  obtain ⟨d', hd', hd, -⟩ := fit_ok hf
  obtain rfl := hd' d hI.metric
  obtain ⟨st, hst, htr⟩ := hd.steps
  obtain ⟨s1, s2, s3, s4⟩ := startForest_spec o S W none
  obtain ⟨h1, h2⟩ := hst.plain hI (fun _ => 1)
  refine ⟨st.length, h1, ?_, ?_⟩
  · rw [hd.labels, numRegions_treeLabels, hst.nComponents s1, s4]
  · rw [htr]
    cases trace
    · rfl
    · simp [h2]

/-- C102: `fit` without data and without a quorum cuts the edges of its spanning forest in their order.
Let `f` and `g` be the results for two numbers of clusters, `g` being the one with more; the edges left in
`g` are those left in `f` without the first few, one for every further cluster. -/
theorem c102_fit {o : WeightOrder} {fuel fuel' : Nat} {a b : Option Int} {W : Adj n}
    {trace trace' : Bool} {islands islands' : String} {f g : Outcome n}
    (hf : fit o S fuel a W none none trace islands = .ok f)
    (hg : fit o S fuel' b W none none trace' islands' = .ok g)
    (hle : numRegions f.labels ≤ numRegions g.labels) :
    g.forest = f.forest.drop (numRegions g.labels - numRegions f.labels) := by
  obtain ⟨i, h1, h2, -⟩ := fit_plain hI hf
  obtain ⟨j, h3, h4, -⟩ := fit_plain hI hg
  rw [h1, h3, List.drop_drop]
  congr 1
  omega

/-- C102: every cut in the trace has the score 0 and is made at the first edge left.  `g` is the result
without any cut. -/
theorem c102_trace {o : WeightOrder} {fuel fuel' : Nat} {a : Option Int} {W : Adj n}
    {trace : Bool} {islands islands' : String} {f g : Outcome n}
    (hf : fit o S fuel a W none none true islands = .ok f)
    (hg : fit o S fuel' (some 0) W none none trace islands' = .ok g) :
    f.trace.map Prod.snd = none ::
      (g.forest.take (numRegions f.labels - numRegions g.labels)).map (fun e => some (e, 0)) := by
  obtain ⟨i, h1, h2, h3⟩ := fit_plain hI hf
  have hg0 : g.forest = startForest o S W none ∧ numRegions g.labels = nComponents (active S W none) := by
    obtain ⟨d', hd', hd, -⟩ := fit_ok hg
    obtain ⟨j, h4, h5, -⟩ := fit_plain hI hg
    rcases hd.notMore with h | h
    · refine ⟨h, ?_⟩
      rw [hd.labels, numRegions_treeLabels, h, (startForest_spec o S W none).2.2.2]
    · rw [← numRegions_treeLabels, ← hd.labels, h5] at h
      have hj : j = 0 := by
        unfold aim at h
        split_ifs at h with hc
        · simp only [fewer, plus, Option.map_some, decide_eq_true_eq] at h
          omega
        · simp only [fewer, decide_eq_true_eq] at h
          omega
      rw [hj] at h4 h5
      exact ⟨by simpa using h4, by simpa using h5⟩
  rw [h3, hg0.1, hg0.2, h2]
  simp
end

/-- On a path. -/
example : (findCutNone .default ([(0, 1), (1, 2), (2, 3)] : List (Edge 4)) none none none,
    findCutNone .default ([(0, 1), (1, 2), (2, 3)] : List (Edge 4)) (some 2) none none,
    findCutNone .default ([(0, 1), (1, 2), (2, 3)] : List (Edge 4)) (some 3) none none) =
    (.ok (some ((0, 1), 0)), .ok (some ((1, 2), 0)), .ok none) := by decide +kernel

example : (seen (fit stableOrder .default 5 (some 0) path4 none none true "increase"),
    seen (fit stableOrder .default 5 (some 3) path4 none none true "increase")) =
    (.ok ([0, 0, 0, 0], [(0, 1), (1, 2), (2, 3)], [([0, 0, 0, 0], none)]),
      .ok ([0, 1, 2, 2], [(2, 3)], [([0, 0, 0, 0], none), ([0, 1, 1, 1], some ((0, 1), 0)),
        ([0, 1, 2, 2], some ((1, 2), 0))])) := by decide +kernel

/-- C102 relies on the centre: with a centre that is not the common row the first edge need not be the one
that is cut. -/
example : findCutNone { SpanningForest.default with center := fun _ l _ => l.length }
    ([(0, 1), (1, 2), (2, 3)] : List (Edge 4)) none none none = .ok (some ((1, 2), 16)) := by
  decide +kernel

end Region.Props
