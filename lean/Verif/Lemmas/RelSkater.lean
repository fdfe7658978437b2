import Verif.Lemmas.Rel
import Verif.Model.Skater
/-
Two runs of SKATER side by side.
-/
namespace Region.Skater
open Region Res

section
variable {n m m' : Nat} {c : ℚ} {S S' : SpanningForest} {data : Fin n → Row m} {data' : Fin n → Row m'}

/-- The scores of parts differ by the factor `c`. -/
structure ScoreTimes (c : ℚ) (S S' : SpanningForest) (data : Fin n → Row m) (data' : Fin n → Row m') :
    Prop where
  pos : 0 < c
  reduction : ∀ l, S'.reduction (l.map (c * ·)) = c * S.reduction l
  cross : ∀ l : List (Fin n), Rel (fun x y => y = x.map (c * ·))
    (S.metric.cross (l.map data) (S.center m (l.map data)))
    (S'.metric.cross (l.map data') (S'.center m' (l.map data')))

theorem partScores_rel (h : ScoreTimes c S S' data data') (labels : Fin n → Int) :
    ∀ ls, Rel (fun x y => y = x.map (c * ·)) (partScores S data labels ls)
      (partScores S' data' labels ls) := by
  intro ls
  induction ls with
  | nil => rfl
  | cons l ls ih =>
    unfold partScores
    refine Rel.bind (h.cross _) ?_
    rintro col _ rfl
    refine Rel.bind ih ?_
    rintro rest _ rfl
    simp [Res.Rel, h.reduction]

theorem score_rel (h : ScoreTimes c S S' data data') (labels : Fin n → Int) (quorum : Option ℚ) :
    Rel (fun x y => y = x.map (c * ·)) (score S data labels quorum)
      (score S' data' labels quorum) := by
  unfold score
  dsimp only
  split_ifs
  · rfl
  · refine Rel.bind (partScores_rel h labels _) ?_
    rintro parts _ rfl
    simp [Res.Rel, h.reduction]

/-- A deletion in other units. -/
def scaleDel (c : ℚ) (d : Deletion n) : Deletion n := d.map fun x => (x.1, c * x.2)

theorem better_scale (hc : 0 < c) (s : ℚ) (best : Deletion n) :
    better (some (c * s)) (scaleDel c best) = better (some s) best := by
  cases best with
  | none => rfl
  | some x => simp [better, scaleDel, mul_lt_mul_iff_right₀ hc]

theorem findCutLoop_rel (h : ScoreTimes c S S' data data') (msf : List (Edge n))
    (quorum : Option ℚ) (zero : Option ((Fin n → Int) × Int)) :
    ∀ es best, Rel (fun x y => y = scaleDel c x) (findCutLoop S msf data quorum zero es best)
      (findCutLoop S' msf data' quorum zero es (scaleDel c best)) := by
  intro es
  induction es with
  | nil => intro best; rfl
  | cons e es ih =>
    intro best
    unfold findCutLoop
    split_ifs
    · exact ih best
    · rfl
    · refine Rel.bind (score_rel h _ quorum) ?_
      rintro s _ rfl
      cases s with
      | none => exact ih best
      | some v =>
        simp only [Option.map_some, better_scale h.pos]
        split_ifs
        · exact ih (some (e, v))
        · exact ih best

/-- Outcomes with the same labels and forest, and scores that differ by the factor `c`. -/
def SameOutcome (c : ℚ) (x y : Outcome n) : Prop :=
  y.labels = x.labels ∧ y.forest = x.forest ∧ y.trace = x.trace.map fun t => (t.1, scaleDel c t.2)

theorem pruneLoop_rel (h : ScoreTimes c S S' data data') (quorum : Option ℚ) (target : Option Int)
    (trace : Bool) : ∀ fuel msf tr, Rel (SameOutcome c)
      (pruneLoop S data quorum target trace fuel msf tr)
      (pruneLoop S' data' quorum target trace fuel msf
        (tr.map fun t => (t.1, scaleDel c t.2))) := by
  intro fuel
  induction fuel with
  | zero => intro msf tr; trivial
  | succ fuel ih =>
    intro msf tr
    unfold pruneLoop
    by_cases hf : fewer (nComponents (adjOf msf)) target = true
    · rw [if_pos hf, if_pos hf]
      refine Rel.bind (R := fun x y => y = scaleDel c x)
        (findCutLoop_rel h msf quorum none msf none) ?_
      rintro best _ rfl
      cases best with
      | none => exact ⟨rfl, rfl, rfl⟩
      | some x =>
        obtain ⟨e, s⟩ := x
        cases trace with
        | true =>
          have := ih (msf.erase e) (tr ++ [(treeLabels (msf.erase e), some (e, s))])
          simpa [scaleDel, makeCut] using this
        | false =>
          have := ih (msf.erase e) tr
          simpa [scaleDel, makeCut] using this
    · rw [if_neg hf, if_neg hf]
      exact ⟨rfl, rfl, rfl⟩

theorem fitKernel_rel (h : ScoreTimes c S S' data data') (o : WeightOrder) (fuel : Nat)
    (nClusters : Option Int) (W : Adj n) {kernel kernel' : Fin n → Fin n → ℚ}
    (hk : o.order (dissim W kernel') = o.order (dissim W kernel)) (quorum : Option ℚ)
    (trace : Bool) (islands : String) :
    Rel (SameOutcome c) (fitKernel o S fuel nClusters W kernel data quorum trace islands)
      (fitKernel o S' fuel nClusters W kernel' data' quorum trace islands) := by
  have hf : spanningForest o (dissim W kernel') = spanningForest o (dissim W kernel) := by
    unfold spanningForest; rw [hk]
  unfold fitKernel
  rw [hf]
  generalize spanningForest o (dissim W kernel) = msf
  have hp := fun target => pruneLoop_rel h quorum target trace fuel msf
    (if trace then [(treeLabels msf, none)] else [])
  have ht : (if trace then [(treeLabels msf, (none : Deletion n))] else []).map
      (fun t => (t.1, scaleDel c t.2)) = if trace then [(treeLabels msf, none)] else [] := by
    cases trace <;> rfl
  simp only [ht] at hp
  dsimp only
  generalize (if trace then [(treeLabels msf, (none : Deletion n))] else []) = tr at hp
  split_ifs
  · rfl
  · exact hp _
  · exact hp _
  · exact hp _

end

end Region.Skater
