import Verif.Lemmas.TabuShort
/-
The basic tabu search while an invariant says that the moves on the tabu list improve nothing.
-/
namespace Region

open Spec Relation Props

section Basic
variable {σ : Type} {k : Nat} {ρ : Type} {ops : StratOps σ k} {obj : Objective ρ} {attr : Fin k → ρ}
  {adj : Adj k}

/-- A relation between labels and tabu moves that is kept by best moves and excludes improving tabu
moves. -/
structure Guards (obj : Objective ρ) (attr : Fin k → ρ) (adj : Adj k)
    (H : Labels k → List (Move k) → Prop) : Prop where
  tabu : ∀ L items, H L items → ∀ m ∈ items, L m.area = m.old →
    obj.call L attr ≤ obj.call (moved L m.area m.new) attr
  step : ∀ L items a r, H L items → Admissible adj L a r →
    obj.call (moved L a r) attr ≤ obj.call L attr →
    (∀ b s, Admissible adj L b s → obj.call (moved L a r) attr ≤ obj.call (moved L b s) attr) →
    ∀ items', (∀ x ∈ items', x ∈ items ∨ x = ⟨a, r, L a⟩) → H (moved L a r) items'

/-- The state of the loop. -/
structure Guarded (adj : Adj k) (P : σ → Prop) (H : Labels k → List (Move k) → Prop) (s : TabuState σ k) :
    Prop where
  cont : AllContiguous adj s.labels
  strat : P s.strat
  guard : H s.labels s.tabu.items

/-- A move that would worsen the objective changes nothing. -/
theorem tryMove_worse {P : σ → Prop} (hop : NonWorsening ops obj attr P)
    {s : TabuState σ k} {m : Move k} {d : ℚ} (hc : AllContiguous adj s.labels) (hP : P s.strat)
    (hd : obj.update m.area m.new s.labels attr = some d) (hpos : 0 < d) :
    (tryMove ops adj m s).Post False False fun p => P p.2.strat ∧ p.2.labels = s.labels ∧
      p.2.tabu = s.tabu ∧ p.1 = false := by
  obtain ⟨⟨b, s'⟩, htry, hP', _, hst, hb, htab, hl, _, hc'⟩ :=
    (tryMove_post (adj := adj) hop hP hd hc).total
  refine Res.Post.of_ok htry ?_
  dsimp only at hP' hst hb htab hl hc' ⊢
  have hb' : b = false := by
    rw [Bool.eq_false_iff]
    intro h
    exact absurd (hb.1 h) (not_le.2 hpos)
  subst hb'
  refine ⟨hP', hl.resolve_right fun h' => absurd h'.1 (not_le.2 hpos), ?_, rfl⟩
  unfold tryMove at htry
  rw [Res.bind_eq_ok] at htry
  obtain ⟨⟨al, st, rng⟩, _, h2⟩ := htry
  dsimp only at h2
  cases al with
  | true =>
    rw [if_pos rfl, Res.bind_eq_ok] at h2
    obtain ⟨_, _, h2⟩ := h2
    cases h2
  | false =>
    rw [if_neg (by simp)] at h2
    cases h2
    rfl

theorem basicElse_guarded (he : obj.Exact) {P : σ → Prop} (hop : NonWorsening ops obj attr P)
    {H : Labels k → List (Move k) → Prop} (hH : Guards obj attr adj H) {s : TabuState σ k}
    {best : Option (Nat × Move k × ℚ)} (hi : Guarded adj P H s)
    (hopt : LocalOptimum adj (fun L => obj.call L attr) s.labels)
    (hbest : ∀ j m d, best = some (j, m, d) →
      obj.update m.area m.new s.labels attr = some d ∧ 0 < d) :
    (basicElse ops obj attr adj best s).Post True True fun p => Guarded adj P H p.2 ∧
      (p.1 = true → LocalOptimum adj (fun L => obj.call L attr) p.2.labels) := by
  unfold basicElse
  refine Res.Post.bind (Q := fun s' => s' = s) (Res.post_partial.2 ?_) ?_
  · intro s' h
    unfold aspiration at h
    rw [Res.bind_eq_ok] at h
    obtain ⟨moves, h1, h2⟩ := h
    have htot := improvingTabus_total h1
    have hmem := (improvingTabus_post htot).ok h1
    have : moves = [] := by
      rw [List.eq_nil_iff_forall_not_mem]
      intro m hm
      obtain ⟨h3, h4, d, hd, hneg⟩ := (hmem m).1 hm
      have := hH.tabu _ _ hi.guard m h3 h4
      rw [he _ _ _ _ _ hd] at this
      linarith
    rw [if_pos this] at h2
    cases h2
    rfl
  · rintro s' _ rfl
    split_ifs with hst
    · exact ⟨hi, fun _ => hopt⟩
    · rcases best with _ | ⟨j, m, d⟩
      · exact ⟨hi, by simp⟩
      · obtain ⟨hd, hpos⟩ := hbest j m d rfl
        dsimp only
        refine ((tryMove_worse hop hi.cont hi.strat hd hpos).mono False.elim False.elim
          fun _ h => h).bind ?_
        rintro ⟨b, s2⟩ _ ⟨h1, h2, h3, _⟩
        dsimp only at h1 h2 h3
        exact ⟨⟨by rw [h2]; exact hi.cont, h1, by rw [h2, h3]; exact hi.guard⟩, by simp⟩

theorem basicRound_guarded (hs : Symmetric adj) (he : obj.Exact) {P : σ → Prop}
    (hop : NonWorsening ops obj attr P) {H : Labels k → List (Move k) → Prop}
    (hH : Guards obj attr adj H) {s : TabuState σ k} (hi : Guarded adj P H s) :
    (basicRound ops obj attr adj s).Post True True fun p => Guarded adj P H p.2 ∧
      (p.1 = true → LocalOptimum adj (fun L => obj.call L attr) p.2.labels) := by
  unfold basicRound
  refine Res.Post.bind (Q := fun best =>
    bestMove obj attr s.labels (possibleMoves adj s.labels s.tabu) 0 none = .ok best)
    (Res.post_partial.2 fun _ h => h) ?_
  intro best _ hbest
  have hupd := bestMove_total_of_ok hbest
  have hb := (bestMove_post hupd 0 none).ok hbest
  have hopt : (∀ j m d, best = some (j, m, d) → 0 < d) →
      LocalOptimum adj (fun L => obj.call L attr) s.labels := by
    intro h a r har
    change obj.call _ attr ≤ obj.call _ attr
    by_cases hin : (⟨a, s.labels a, r⟩ : Move k) ∈ s.tabu.items
    · exact hH.tabu _ _ hi.guard _ hin rfl
    · have hmem := (mem_possibleMoves hs (t := s.tabu) (m := ⟨a, s.labels a, r⟩)).2 ⟨rfl, har, hin⟩
      obtain ⟨d', hd'⟩ := hupd _ hmem
      have hc := he _ _ _ _ _ hd'
      dsimp only at hc
      rw [hc]
      rcases best with _ | ⟨j, m, d⟩
      · rw [hb.2] at hmem; cases hmem
      · have h1 := hb.2.1 _ hmem d' hd'
        have h2 := h j m d rfl
        linarith
  rcases best with _ | ⟨j, m, d⟩
  · exact basicElse_guarded he hop hH hi (hopt (by simp)) (by simp)
  · dsimp only at hb ⊢
    obtain ⟨_, hm, hd⟩ := hb.1.resolve_left (by simp)
    split_ifs with hle
    · obtain ⟨hold, hma, -⟩ := (mem_possibleMoves hs).1 (List.mem_of_getElem? hm)
      obtain ⟨⟨b, s1⟩, htry, hP, -, -, hb1, htab, -, hl', hcont⟩ :=
        (tryMove_post (adj := adj) hop hi.strat hd hi.cont).total
      dsimp only at hP hb1 htab hl' hcont
      have hlab := hl' hle (moved_contiguous hi.cont hma)
      have hcall := he _ _ _ _ _ hd
      rw [htry, Res.bind_ok]
      dsimp only
      rw [if_pos (hb1.2 hle)]
      refine ⟨⟨hcont, hP, ?_⟩, by simp⟩
      rw [hlab]
      refine hH.step _ _ _ _ hi.guard hma (by linarith) (fun a r har => ?_) _ fun x hx => ?_
      · by_cases hin : (⟨a, s.labels a, r⟩ : Move k) ∈ s.tabu.items
        · have := hH.tabu _ _ hi.guard _ hin rfl
          dsimp only at this
          linarith
        · have hmem := (mem_possibleMoves hs (t := s.tabu) (m := ⟨a, s.labels a, r⟩)).2 ⟨rfl, har, hin⟩
          obtain ⟨d', hd'⟩ := hupd _ hmem
          have h1 := hb.2.1 _ hmem d' hd'
          have h2 := he _ _ _ _ _ hd'
          dsimp only at h2
          linarith
      · rcases htab with h | h
        · rw [h] at hx; exact .inl hx
        · rw [h] at hx; exact Tabu.mem_append hx
    · have hgt := not_le.1 hle
      refine basicElse_guarded he hop hH hi (hopt ?_) ?_
      · rintro j m d h
        cases h
        exact hgt
      · rintro j m d h
        cases h
        exact ⟨hd, hgt⟩

theorem basicLoop_guarded (hs : Symmetric adj) (he : obj.Exact) {P : σ → Prop}
    (hop : NonWorsening ops obj attr P) {H : Labels k → List (Move k) → Prop}
    (hH : Guards obj attr adj H) (reps : Int) :
    ∀ (fuel : Nat) (s : TabuState σ k), Guarded adj P H s →
      (basicLoop ops obj attr adj reps fuel s).Post True True fun s' =>
        LocalOptimum adj (fun L => obj.call L attr) s'.labels := by
  intro fuel
  induction fuel with
  | zero => intro s _; trivial
  | succ fuel ih =>
    intro s hi
    unfold basicLoop
    refine (basicRound_guarded hs he hop hH (s := noteVisit reps s)
      ⟨hi.cont, hi.strat, hi.guard⟩).bind ?_
    rintro ⟨b, s1⟩ _ ⟨h1, h2⟩
    dsimp only at h1 h2 ⊢
    split_ifs with hb
    · exact h2 hb
    · exact ih s1 h1

end Basic

end Region
