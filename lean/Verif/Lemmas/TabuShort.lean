import Verif.Lemmas.TabuDescent
/-
The basic tabu search with a tabu list of at most one move.
-/
namespace Region

open Spec Relation Props

section Basic
variable {σ : Type} {k : Nat} {ρ : Type} {ops : StratOps σ k} {obj : Objective ρ} {attr : Fin k → ρ}
  {adj : Adj k}

/-- No tabu move that can be made improves the objective, and at most one is stored. -/
structure Harmless (obj : Objective ρ) (attr : Fin k → ρ) (adj : Adj k) (P : σ → Prop)
    (s : TabuState σ k) : Prop where
  cont : AllContiguous adj s.labels
  strat : P s.strat
  len : ∃ l, s.tabu.maxlen = some l ∧ l ≤ 1
  tabu : ∀ m ∈ s.tabu.items, s.labels m.area = m.old →
    obj.call s.labels attr ≤ obj.call (moved s.labels m.area m.new) attr

theorem Tabu.append_short {t : Tabu k} {l : Nat} (h : t.maxlen = some l) (hl : l ≤ 1) (m : Move k) :
    ∀ x ∈ (t.append m).items, x = m := by
  unfold Tabu.append
  rw [h]
  intro x hx
  have : t.items.length ≤ t.items.length + 1 - l := by omega
  have hx := (List.drop_sublist_drop_left (t.items ++ [m]) this).subset hx
  simpa using hx

theorem improvingTabus_total {L : Labels k} {ms : List (Move k)} :
    ∀ {out : List (Move k)}, improvingTabus obj attr L ms = .ok out →
      ∀ m ∈ ms, L m.area = m.old → ∃ d, obj.update m.area m.new L attr = some d := by
  induction ms with
  | nil => simp
  | cons m ms ih =>
    intro out h
    unfold improvingTabus at h
    split_ifs at h with ho
    · rw [Res.bind_eq_ok] at h
      obtain ⟨d, h1, h2⟩ := h
      have hd : obj.update m.area m.new L attr = some d := by
        unfold updateOf at h1
        split at h1
        · cases h1
        · rename_i heq; cases h1; exact heq
      rw [Res.bind_eq_ok] at h2
      obtain ⟨rest, h3, _⟩ := h2
      intro m' hm'
      rcases List.mem_cons.1 hm' with rfl | hm'
      · exact fun _ => ⟨d, hd⟩
      · exact ih h3 m' hm'
    · intro m' hm'
      rcases List.mem_cons.1 hm' with rfl | hm'
      · exact fun h => absurd h ho
      · exact ih h m' hm'

theorem tryMove_harmless (he : obj.Exact) {P : σ → Prop} (hop : NonWorsening ops obj attr P)
    {s : TabuState σ k} {m : Move k} {d : ℚ} (hi : Harmless obj attr adj P s)
    (hd : obj.update m.area m.new s.labels attr = some d) :
    (tryMove ops adj m s).Post False False fun p => Harmless obj attr adj P p.2 ∧
      (p.1 = true ↔ d ≤ 0) ∧ (0 < d → p.2.labels = s.labels) ∧ p.2.stop = s.stop := by
  obtain ⟨⟨b, s'⟩, htry, hP, _, hst, hb, htab, hl, _, hc⟩ :=
    (tryMove_post (adj := adj) hop hi.strat hd hi.cont).total
  refine Res.Post.of_ok htry ?_
  dsimp only at hP hst hb htab hl hc ⊢
  obtain ⟨l, hlen, hl1⟩ := hi.len
  have hcall := he _ _ _ _ _ hd
  refine ⟨⟨hc, hP, ⟨l, ?_, hl1⟩, ?_⟩, hb, fun h => hl.resolve_right fun h' => absurd h'.1
    (not_le.2 h), hst⟩
  · rcases htab with h | h
    · rw [h]; exact hlen
    · rw [h, Tabu.append_maxlen]; exact hlen
  · cases b with
    | true =>
      intro x hx hold
      rw [tryMove_append hi.cont htry] at hx
      have := Tabu.append_short hlen hl1 _ x hx
      subst this
      dsimp only at hold ⊢
      rcases hl with hl | ⟨hle, hl⟩
      · rw [hl, moved_same]
      · rw [hl, moved_back, hcall]
        linarith
    | false =>
      have hgt : 0 < d := by
        by_contra hcon
        exact absurd (hb.2 (not_lt.1 hcon)) (by simp)
      have hlab := hl.resolve_right fun h' => absurd h'.1 (not_le.2 hgt)
      have htab' : s'.tabu = s.tabu := by
        unfold tryMove at htry
        rw [Res.bind_eq_ok] at htry
        obtain ⟨⟨al, st, rng⟩, _, h2⟩ := htry
        dsimp only at h2
        cases al with
        | true =>
          rw [if_pos rfl, Res.bind_eq_ok] at h2
          obtain ⟨_, _, h2⟩ := h2
          cases h2
        | false =>
          rw [if_neg (by simp)] at h2
          cases h2
          rfl
      rw [htab', hlab]
      exact hi.tabu

theorem basicElse_harmless (he : obj.Exact) {P : σ → Prop} (hop : NonWorsening ops obj attr P)
    {s : TabuState σ k} {best : Option (Nat × Move k × ℚ)} (hi : Harmless obj attr adj P s)
    (hopt : LocalOptimum adj (fun L => obj.call L attr) s.labels)
    (hbest : ∀ j m d, best = some (j, m, d) →
      obj.update m.area m.new s.labels attr = some d ∧ 0 < d) :
    (basicElse ops obj attr adj best s).Post True True fun p => Harmless obj attr adj P p.2 ∧
      (p.1 = true → LocalOptimum adj (fun L => obj.call L attr) p.2.labels) := by
  unfold basicElse
  refine Res.Post.bind (Q := fun s' => s' = s) (Res.post_partial.2 ?_) ?_
  · intro s' h
    unfold aspiration at h
    rw [Res.bind_eq_ok] at h
    obtain ⟨moves, h1, h2⟩ := h
    have htot := improvingTabus_total h1
    have hmem := (improvingTabus_post htot).ok h1
    have : moves = [] := by
      rw [List.eq_nil_iff_forall_not_mem]
      intro m hm
      obtain ⟨h3, h4, d, hd, hneg⟩ := (hmem m).1 hm
      have := hi.tabu m h3 h4
      rw [he _ _ _ _ _ hd] at this
      linarith
    rw [if_pos this] at h2
    cases h2
    rfl
  · rintro s' _ rfl
    split_ifs with hst
    · exact ⟨hi, fun _ => hopt⟩
    · rcases best with _ | ⟨j, m, d⟩
      · exact ⟨hi, by simp⟩
      · obtain ⟨hd, _⟩ := hbest j m d rfl
        dsimp only
        refine ((tryMove_harmless he hop hi hd).mono False.elim False.elim fun _ h => h).bind ?_
        rintro ⟨b, s2⟩ _ ⟨h1, _⟩
        exact ⟨h1, by simp⟩

theorem basicRound_harmless (hs : Symmetric adj) (he : obj.Exact) {P : σ → Prop}
    (hop : NonWorsening ops obj attr P) {s : TabuState σ k} (hi : Harmless obj attr adj P s) :
    (basicRound ops obj attr adj s).Post True True fun p => Harmless obj attr adj P p.2 ∧
      (p.1 = true → LocalOptimum adj (fun L => obj.call L attr) p.2.labels) := by
  unfold basicRound
  refine Res.Post.bind (Q := fun best =>
    bestMove obj attr s.labels (possibleMoves adj s.labels s.tabu) 0 none = .ok best)
    (Res.post_partial.2 fun _ h => h) ?_
  intro best _ hbest
  have hupd := bestMove_total_of_ok hbest
  have hb := (bestMove_post hupd 0 none).ok hbest
  have hopt : (∀ j m d, best = some (j, m, d) → 0 < d) →
      LocalOptimum adj (fun L => obj.call L attr) s.labels := by
    intro h a r har
    change obj.call _ attr ≤ obj.call _ attr
    by_cases hin : (⟨a, s.labels a, r⟩ : Move k) ∈ s.tabu.items
    · exact hi.tabu _ hin rfl
    · have hmem := (mem_possibleMoves hs (t := s.tabu) (m := ⟨a, s.labels a, r⟩)).2 ⟨rfl, har, hin⟩
      obtain ⟨d', hd'⟩ := hupd _ hmem
      have hc := he _ _ _ _ _ hd'
      dsimp only at hc
      rw [hc]
      rcases best with _ | ⟨j, m, d⟩
      · rw [hb.2] at hmem; cases hmem
      · have h1 := hb.2.1 _ hmem d' hd'
        have h2 := h j m d rfl
        linarith
  rcases best with _ | ⟨j, m, d⟩
  · exact basicElse_harmless he hop hi (hopt (by simp)) (by simp)
  · dsimp only at hb ⊢
    obtain ⟨_, _, hd⟩ := hb.1.resolve_left (by simp)
    split_ifs with hle
    · refine ((tryMove_harmless he hop hi hd).mono False.elim False.elim fun _ h => h).bind ?_
      rintro ⟨b, s1⟩ _ ⟨h1, h2, _⟩
      dsimp only at h1 h2 ⊢
      rw [if_pos (h2.2 hle)]
      exact ⟨h1, by simp⟩
    · have hgt := not_le.1 hle
      refine basicElse_harmless he hop hi (hopt ?_) ?_
      · rintro j m d h
        cases h
        exact hgt
      · rintro j m d h
        cases h
        exact ⟨hd, hgt⟩

theorem basicLoop_harmless (hs : Symmetric adj) (he : obj.Exact) {P : σ → Prop}
    (hop : NonWorsening ops obj attr P) (reps : Int) :
    ∀ (fuel : Nat) (s : TabuState σ k), Harmless obj attr adj P s →
      (basicLoop ops obj attr adj reps fuel s).Post True True fun s' =>
        LocalOptimum adj (fun L => obj.call L attr) s'.labels := by
  intro fuel
  induction fuel with
  | zero => intro s _; trivial
  | succ fuel ih =>
    intro s hi
    unfold basicLoop
    refine (basicRound_harmless hs he hop (s := noteVisit reps s)
      ⟨hi.cont, hi.strat, hi.len, hi.tabu⟩).bind ?_
    rintro ⟨b, s1⟩ _ ⟨h1, h2⟩
    dsimp only at h1 h2 ⊢
    split_ifs with hb
    · exact h2 hb
    · exact ih s1 h1

end Basic

end Region
