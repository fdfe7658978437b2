import Verif.Props.Azp
/-
`fit` on a connected map: one call of the routine for a component.
-/
namespace Region

open Spec Props

section
variable {σ ρ : Type} {n : Nat} {adj : Adj n}

theorem compArray_connected (hcon : Connected adj) (lab : Labels n) : compArray adj lab 0 = lab := by
  have h1 := (nComponents_eq_one_iff _).2 hcon
  funext v
  unfold compArray
  have := compLabels_lt adj v
  rw [if_pos (by omega)]

theorem shown_all {lab : Labels n} (h : ∀ v, lab v ≠ -1) : shown lab = List.finRange n := by
  unfold shown
  rw [List.filter_eq_self]
  intro v _
  simpa using h v

/-- One round of the loop over the components if all areas are shown. -/
theorem fitLoop_one {attr : Fin n → ρ} {comp : CompFn σ n ρ} {R T : Prop}
    {Q : (idx : List (Fin n)) → Labels idx.length → Prop} {lab : Labels n} (hlab : ∀ v, lab v ≠ -1)
    {s : Rng → Res (Yielded n × Rng)} {r r' : Rng} (hy : s r = .ok (.array lab, r')) (L : Labels n) (st : σ)
    (hcomp : (comp (List.finRange n) (subAdj adj (List.finRange n))
      (fun i => lab ((List.finRange n).get i)) (fun i => attr ((List.finRange n).get i)) st r').Post R T
        fun q => Q (List.finRange n) q.1) :
    (fitLoop adj attr comp [s] L st r).Post R T fun q =>
      Q (List.finRange n) fun i => q.1 ((List.finRange n).get i) := by
  unfold fitLoop
  rw [hy, Res.bind_ok]
  dsimp only
  rw [← shown_all hlab] at hcomp ⊢
  refine Res.Post.bind (Q := fun q : Labels n × σ × Rng =>
    Q (shown lab) fun i => q.1 ((shown lab).get i)) ?_ ?_
  · unfold fitStep
    refine hcomp.bind ?_
    rintro ⟨out, st', rng'⟩ _ hq
    dsimp only at hq ⊢
    have : (fun i => scatter (shown lab) out L ((shown lab).get i)) = out := by
      funext i
      exact scatter_mem (shown_nodup lab) _ _ i
    change Q (shown lab) fun i => scatter (shown lab) out L ((shown lab).get i)
    rw [this]
    exact hq
  · rintro ⟨L1, st1, rng1⟩ _ h
    exact h

/-- `fit` on a connected map. -/
theorem fitWith_one (o : MstOrder) (hcon : Connected adj) {attr : Fin n → ρ} {comp : CompFn σ n ρ}
    {R T : Prop} {Q : (idx : List (Fin n)) → Labels idx.length → Prop} {p : Int}
    {initial : Option (Labels n)} (hstart : GoodStart adj p initial)
    (hfree : ∀ init, initial = some init → ∀ v, init v ≠ -1) (st : σ) (rng : Rng)
    (hcomp : ∀ lab, StartsFrom adj p initial lab → ∀ rng,
      (comp (List.finRange n) (subAdj adj (List.finRange n)) (fun i => lab ((List.finRange n).get i))
        (fun i => attr ((List.finRange n).get i)) st rng).Post R T fun q => Q (List.finRange n) q.1) :
    (fitWith o adj attr comp p initial st rng).Post R T fun q =>
      Q (List.finRange n) fun i => q.1 ((List.finRange n).get i) := by
  have h1 := (nComponents_eq_one_iff _).2 hcon
  have hsep : ∀ lab, separateComponents adj lab = [lab] := by
    intro lab
    rw [separateComponents_eq, h1]
    change [compArray adj lab 0] = _
    rw [compArray_connected hcon]
  unfold fitWith
  cases initial with
  | some init =>
    have hsf : StartsFrom adj p (some init) init := ⟨hstart.1, hstart.2.1, rfl⟩
    dsimp only
    rw [(c04_assert_feasible_ok init adj (some p)).2 ⟨hstart.1, by rintro _ ⟨⟩; exact hstart.2.1⟩,
      Res.bind_ok, hsep]
    exact fitLoop_one (hfree init rfl) rfl _ st (hcomp init hsf rng)
  | none =>
    obtain ⟨hn, hp, hp1, hc⟩ := hstart
    obtain ⟨gen, r', h2, h3, h4⟩ := generateInitialSol_spec o adj p rng hn hp hp1 hc
    dsimp only
    rw [h2, Res.bind_ok]
    choose f g hf using fun i : Fin gen.length => h3 (gen.get i) (List.get_mem _ _) r'
    obtain ⟨lab, e1, e2, e3, e4⟩ := h4 ((List.finRange gen.length).map f) (by
      rw [List.forall₂_iff_get]
      refine ⟨by simp, fun i hi1 hi2 => ?_⟩
      simp only [List.get_eq_getElem, List.getElem_map, List.getElem_finRange]
      exact ⟨r', _, hf ⟨i, hi1⟩⟩)
    have hlen : gen.length = 1 := by
      have := congrArg List.length e1
      rw [hsep] at this
      simpa using this
    obtain ⟨s, rfl⟩ := List.length_eq_one_iff.1 hlen
    have hy := hf 0
    have hlab : f 0 = lab := by
      rw [hsep] at e1
      simp at e1
      exact e1.2
    rw [hlab] at hy
    exact fitLoop_one (fun v => by have := (e3 v).1; omega) hy _ st
      (hcomp lab ⟨e2, numRegions_Ico (by omega) e3 e4, e3⟩ _)

end

end Region
