import Verif.Lemmas.Objects
import Verif.Lemmas.Skater
import Verif.Model.SkaterObject
/-
The loop of SKATER's `fit` with and without the attributes of the object.
-/
namespace Region.Skater

open Spec

/-- What the loop with attributes does, in terms of the loop without. -/
theorem pruneLoopPy_spec (S : SpanningForest) {n m : Nat} (data : Fin n → Row m) (quorum : Option ℚ)
    (target : Option Int) (trace : Bool) (fuel : Nat) (msf : List (Edge n))
    (tr : List ((Fin n → Int) × Deletion n)) (s : Attrs)
    (htr : trace = true → s.trace = some (tr.map traceEntry)) :
    (pruneLoopPy S data quorum target trace fuel msf s).1 =
      (pruneLoop S data quorum target trace fuel msf tr >>= fun _ => .ok ()) ∧
    (∀ f, pruneLoop S data quorum target trace fuel msf tr = .ok f →
      (pruneLoopPy S data quorum target trace fuel msf s).2 =
        ⟨some (arrayList f.labels), some ⟨n, f.forest⟩,
          if trace then some (f.trace.map traceEntry) else s.trace⟩) ∧
    ((∀ f, pruneLoop S data quorum target trace fuel msf tr ≠ .ok f) →
      (pruneLoopPy S data quorum target trace fuel msf s).2.labels = s.labels ∧
      (pruneLoopPy S data quorum target trace fuel msf s).2.forest = s.forest ∧
      (trace = false → (pruneLoopPy S data quorum target trace fuel msf s).2.trace = s.trace) ∧
      (trace = true → ∃ st, (pruneLoopPy S data quorum target trace fuel msf s).2.trace =
        some ((tr ++ st).map traceEntry))) := by
  have hfin : ∀ f : Outcome n, f = ⟨treeLabels msf, msf, tr⟩ → finish msf s =
      (.ok (), ⟨some (arrayList f.labels), some ⟨n, f.forest⟩,
          if trace then some (f.trace.map traceEntry) else s.trace⟩) := by
    rintro f rfl
    unfold finish
    rw [Py.bind_set]
    show (Res.ok (), Attrs.mk _ _ s.trace) = _
    cases trace with
    | false => rfl
    | true => rw [htr rfl]; rfl
  induction fuel generalizing msf tr s with
  | zero =>
    unfold pruneLoopPy pruneLoop
    exact ⟨rfl, fun f h => (by cases h), fun _ => ⟨rfl, rfl, fun _ => rfl, fun h =>
      ⟨[], by rw [List.append_nil]; exact htr h⟩⟩⟩
  | succ fuel ih =>
    unfold pruneLoopPy pruneLoop
    by_cases hk : fewer (nComponents (adjOf msf)) target = true
    · rw [if_pos hk, if_pos hk]
      cases hb : findCut S msf data quorum none none with
      | raise x =>
        rw [Py.bind_lift_raise]
        exact ⟨rfl, fun f h => (by cases h), fun _ => ⟨rfl, rfl, fun _ => rfl, fun h =>
          ⟨[], by rw [List.append_nil]; exact htr h⟩⟩⟩
      | timeout =>
        rw [Py.bind_lift_timeout]
        exact ⟨rfl, fun f h => (by cases h), fun _ => ⟨rfl, rfl, fun _ => rfl, fun h =>
          ⟨[], by rw [List.append_nil]; exact htr h⟩⟩⟩
      | ok best =>
        rw [Py.bind_lift_ok]
        simp only [Res.bind_ok]
        match best with
        | none =>
          dsimp only
          rw [hfin _ rfl]
          exact ⟨rfl, fun f h => (by cases h; rfl), fun h => absurd rfl (h _)⟩
        | some (e, v) =>
          simp only [makeCut, Py.bind_lift_ok, Res.bind_ok]
          cases trace with
          | false =>
            have := ih (msf.erase e) tr s (fun h => by cases h) (by
              rintro f rfl
              rfl)
            exact this
          | true =>
            have hs : (Attrs.append (traceEntry (treeLabels (msf.erase e), some (e, v))) s).trace =
                some ((tr ++ [(treeLabels (msf.erase e), some (e, v))]).map traceEntry) := by
              show s.trace.map _ = _
              rw [htr rfl]
              simp
            have := ih (msf.erase e) (tr ++ [(treeLabels (msf.erase e), some (e, v))])
              (Attrs.append (traceEntry (treeLabels (msf.erase e), some (e, v))) s) (fun _ => hs) (by
                rintro f rfl
                unfold finish
                rw [Py.bind_set]
                show (Res.ok (), Attrs.mk _ _ (Attrs.trace _)) = _
                rw [if_pos rfl, hs])
            simp only [if_true]
            rw [Py.bind_set]
            refine ⟨this.1, this.2.1, fun h => ?_⟩
            obtain ⟨h1, h2, -, h4⟩ := this.2.2 h
            obtain ⟨st, h4⟩ := h4 rfl
            exact ⟨h1, h2, fun h => (by cases h), fun _ => ⟨_ :: st, by
              rw [List.append_cons]
              exact h4⟩⟩
    · rw [if_neg hk, if_neg hk, hfin _ rfl]
      exact ⟨rfl, fun f h => (by cases h; rfl), fun h => absurd rfl (h _)⟩

section
variable (o : WeightOrder) (S : SpanningForest) {n : Nat} (fuel : Nat) (nClusters : Option Int)
  (W : Adj n) (data : Option (Σ m : Nat, Fin n → Row m)) (quorum : Option ℚ) (trace : Bool)
  (islands : String) (s : Attrs)

/-- Everything about a call of `fit`. -/
theorem fitPy_spec :
    (fitPy o S fuel nClusters W data quorum trace islands s).1 =
      (fit o S fuel nClusters W data quorum trace islands >>= fun _ => .ok ()) ∧
    (∀ f, fit o S fuel nClusters W data quorum trace islands = .ok f →
      (fitPy o S fuel nClusters W data quorum trace islands s).2 =
        ⟨some (arrayList f.labels), some ⟨n, f.forest⟩,
          if trace then some (f.trace.map traceEntry) else s.trace⟩) ∧
    ((∀ f, fit o S fuel nClusters W data quorum trace islands ≠ .ok f) →
      (fitPy o S fuel nClusters W data quorum trace islands s).2.labels = s.labels ∧
      (fitPy o S fuel nClusters W data quorum trace islands s).2.forest = s.forest ∧
      (trace = false → (fitPy o S fuel nClusters W data quorum trace islands s).2.trace = s.trace) ∧
      (trace = true → ∃ tr : List ((Fin n → Int) × Deletion n),
        (fitPy o S fuel nClusters W data quorum trace islands s).2.trace =
          some (tr.map traceEntry))) := by
  have hk : ∀ {m : Nat} (kernel : Fin n → Fin n → ℚ) (data : Fin n → Row m),
      (fitKernelPy o S fuel nClusters W kernel data quorum trace islands s).1 =
        (fitKernel o S fuel nClusters W kernel data quorum trace islands >>= fun _ => .ok ()) ∧
      (∀ f, fitKernel o S fuel nClusters W kernel data quorum trace islands = .ok f →
        (fitKernelPy o S fuel nClusters W kernel data quorum trace islands s).2 =
          ⟨some (arrayList f.labels), some ⟨n, f.forest⟩,
            if trace then some (f.trace.map traceEntry) else s.trace⟩) ∧
      ((∀ f, fitKernel o S fuel nClusters W kernel data quorum trace islands ≠ .ok f) →
        (fitKernelPy o S fuel nClusters W kernel data quorum trace islands s).2.labels = s.labels ∧
        (fitKernelPy o S fuel nClusters W kernel data quorum trace islands s).2.forest = s.forest ∧
        (trace = false →
          (fitKernelPy o S fuel nClusters W kernel data quorum trace islands s).2.trace = s.trace) ∧
        (trace = true → ∃ tr : List ((Fin n → Int) × Deletion n),
          (fitKernelPy o S fuel nClusters W kernel data quorum trace islands s).2.trace =
            some (tr.map traceEntry))) := by
    intro m kernel data
    -- the state when the loop is reached, and the loop
    have hloop : ∀ target,
        let msf := spanningForest o (dissim W kernel)
        let tr : List ((Fin n → Int) × Deletion n) := if trace then [(treeLabels msf, none)] else []
        let s1 : Attrs := if trace then { s with trace := some [traceEntry (treeLabels msf, none)] } else s
        let x := pruneLoopPy S data quorum target trace fuel msf s1
        let y := pruneLoop S data quorum target trace fuel msf tr
        x.1 = (y >>= fun _ => .ok ()) ∧
        (∀ f, y = .ok f → x.2 = ⟨some (arrayList f.labels), some ⟨n, f.forest⟩,
            if trace then some (f.trace.map traceEntry) else s.trace⟩) ∧
        ((∀ f, y ≠ .ok f) → x.2.labels = s.labels ∧ x.2.forest = s.forest ∧
          (trace = false → x.2.trace = s.trace) ∧
          (trace = true → ∃ tr : List ((Fin n → Int) × Deletion n),
            x.2.trace = some (tr.map traceEntry))) := by
      intro target msf tr s1 x y
      have := pruneLoopPy_spec S data quorum target trace fuel msf tr s1 (by
        intro h
        subst h
        rfl)
      have h1 : s1.labels = s.labels := by simp only [s1]; split_ifs <;> rfl
      have h2 : s1.forest = s.forest := by simp only [s1]; split_ifs <;> rfl
      refine ⟨this.1, fun f hf => ?_, fun hne => ?_⟩
      · rw [this.2.1 f hf]
        cases trace <;> rfl
      · obtain ⟨g1, g2, g3, g4⟩ := this.2.2 hne
        refine ⟨g1.trans h1, g2.trans h2, fun h => ?_, fun h => ?_⟩
        · rw [g3 h]
          subst h
          rfl
        · obtain ⟨st, h4⟩ := g4 h
          exact ⟨_, h4⟩
    have hrest : ∀ (x : Res (Option Int)) (s0 s1 : Attrs),
        (if trace = true then Attrs.append (traceEntry
          (treeLabels (spanningForest o (dissim W kernel)), none)) s0 else s0) = s1 →
        (Py.lift x >>= fun target => (do
          if trace = true then Py.set (Attrs.append (traceEntry
            (treeLabels (spanningForest o (dissim W kernel)), none)))
          pruneLoopPy S data quorum target trace fuel (spanningForest o (dissim W kernel)) :
          Py Attrs Unit)) s0 = match x with
            | .ok target => pruneLoopPy S data quorum target trace fuel
                (spanningForest o (dissim W kernel)) s1
            | .raise e => (.raise e, s0)
            | .timeout => (.timeout, s0) := by
      intro x s0 s1 h
      subst h
      cases x with
      | ok t => cases trace <;> rfl
      | raise e => rfl
      | timeout => rfl
    have hcase : (fitKernelPy o S fuel nClusters W kernel data quorum trace islands s) = 
        match (if nComponents (adjOf (spanningForest o (dissim W kernel))) > 1 then
            if ((uniqueCounts (arrayList (treeLabels (spanningForest o (dissim W kernel))))).map
              Prod.snd).any (below quorum) then
              (.raise (.valueError "Islands must be larger than the quorum.") : Res (Option Int))
            else .ok (if islands.toLower == "ignore" then nClusters
              else plus nClusters (nComponents (adjOf (spanningForest o (dissim W kernel)))))
          else .ok nClusters) with
        | .ok target => pruneLoopPy S data quorum target trace fuel
            (spanningForest o (dissim W kernel))
              (if trace then { s with trace := some [traceEntry
                (treeLabels (spanningForest o (dissim W kernel)), none)] } else s)
        | .raise e => (.raise e, if trace then { s with trace := some [] } else s)
        | .timeout => (.timeout, if trace then { s with trace := some [] } else s) := by
      unfold fitKernelPy
      cases trace with
      | false => exact hrest _ s s rfl
      | true => exact hrest _ { s with trace := some [] } _ rfl
    rw [hcase]
    unfold fitKernel
    dsimp only
    by_cases h1 : nComponents (adjOf (spanningForest o (dissim W kernel))) > 1
    · rw [if_pos h1, if_pos h1]
      by_cases h2 : ((uniqueCounts (arrayList (treeLabels (spanningForest o
          (dissim W kernel))))).map Prod.snd).any (below quorum) = true
      · rw [if_pos h2, if_pos h2]
        refine ⟨rfl, fun f h => (by cases h), fun _ => ?_⟩
        cases trace with
        | false => exact ⟨rfl, rfl, fun _ => rfl, fun h => (by cases h)⟩
        | true => exact ⟨rfl, rfl, fun h => (by cases h), fun _ => ⟨[], rfl⟩⟩
      · rw [if_neg h2, if_neg h2]
        exact hloop _
    · rw [if_neg h1, if_neg h1]
      exact hloop _
  cases data with
  | none => exact hk _ _
  | some x => exact hk _ _

end

end Region.Skater
