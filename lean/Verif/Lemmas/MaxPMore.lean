import Verif.Lemmas.MaxPFit
import Verif.Props.AzpOpt
/-
More lemmas for the properties of `MaxPRegionsHeu`: what the strategy object goes through during a pass,
greedy strategies, the best partition found, and the threshold during basic tabu search.
-/
namespace Region

open Spec Relation Props

/-! ### The strategy object during one pass -/

section
variable {σ : Type} {k : Nat} {ops : StratOps σ k} {adj : Adj k} {Q : σ → Prop}

theorem tryCandidates_strat
    (hQ : ∀ st a r L rng, Q st → (ops.call st a r L rng).Post True True fun p => Q p.2.1) (x : Int) :
    ∀ (fuel : Nat) (cs : List (Fin k)) (s : AzpState σ k), Q s.strat →
      (tryCandidates ops adj x fuel cs s).Post True True fun p => Q p.2.strat := by
  intro fuel
  induction fuel with
  | zero =>
    intro cs s h
    cases cs with
    | nil => unfold tryCandidates; exact h
    | cons => unfold tryCandidates; trivial
  | succ fuel ih =>
    intro cs s h
    cases cs with
    | nil => unfold tryCandidates; exact h
    | cons c cs =>
      unfold tryCandidates
      refine Res.Post.bind (Q := fun _ => True) (Res.post_partial.2 fun _ _ => trivial) ?_
      rintro ⟨cand, rest, rng⟩ _ _
      refine Res.Post.bind (hQ s.strat cand x s.labels rng h) ?_
      rintro ⟨al, st, rng'⟩ _ hst
      dsimp only at hst ⊢
      split_ifs
      · refine Res.Post.bind (Q := fun s' => s'.strat = st) ?_ ?_
        · apply Res.post_partial.2
          intro s' hs'
          unfold applyMove at hs'
          simp only [Res.bind_eq_ok] at hs'
          obtain ⟨_, _, _, _, _, _, _, _, he⟩ := hs'
          cases he
          rfl
        · intro s' _ hs'
          change Q s'.strat
          rw [hs']
          exact hst
      · exact ih rest _ hst

theorem growRegion_strat
    (hQ : ∀ st a r L rng, Q st → (ops.call st a r L rng).Post True True fun p => Q p.2.1) (x : Int) :
    ∀ (fuel : Nat) (s : AzpState σ k), Q s.strat →
      (growRegion ops adj x fuel s).Post True True fun p => Q p.strat := by
  intro fuel
  induction fuel with
  | zero => intro s _; unfold growRegion; trivial
  | succ fuel ih =>
    intro s h
    unfold growRegion
    refine Res.Post.bind (Q := fun _ => True) (Res.post_partial.2 fun _ _ => trivial) ?_
    intro border _ _
    refine Res.Post.bind (tryCandidates_strat hQ x _ _ s h) ?_
    rintro ⟨b, s'⟩ _ h'
    dsimp only at h' ⊢
    split_ifs
    · exact ih s' h'
    · exact h'

theorem passRegions_strat
    (hQ : ∀ st a r L rng, Q st → (ops.call st a r L rng).Post True True fun p => Q p.2.1)
    (fuel : Nat) :
    ∀ (m : Nat) (rs : List Int) (s : AzpState σ k), Q s.strat →
      (passRegions ops adj fuel m rs s).Post True True fun p => Q p.strat := by
  intro m
  induction m with
  | zero =>
    intro rs s h
    cases rs with
    | nil => unfold passRegions; exact h
    | cons => unfold passRegions; trivial
  | succ m ih =>
    intro rs s h
    cases rs with
    | nil => unfold passRegions; exact h
    | cons x xs =>
      unfold passRegions
      refine Res.Post.bind (Q := fun _ => True) (Res.post_partial.2 fun _ _ => trivial) ?_
      rintro ⟨rec, rest, rng⟩ _ _
      refine Res.Post.bind (growRegion_strat hQ rec fuel { s with rng := rng } h) ?_
      intro s' _ h'
      exact ih rest s' h'

end

/-- The decorator never changes its own `objective_val`. -/
theorem Strat.call_maxp_objVal {n q k : Nat} {ρ : Type} (expf : ℚ → ℚ) (idx : Fin k → Fin n)
    (attr : Fin k → ρ) (obj : Objective ρ) (v : ℚ) (st : Strat n q) (a : Fin k) (r : Int)
    (L : Labels k) (rng : Rng) (h : st.isMaxp = true ∧ st.objVal = v) :
    (st.call expf idx attr obj a r L rng).Post True True fun p =>
      p.2.1.isMaxp = true ∧ p.2.1.objVal = v := by
  cases st with
  | azp => cases h.1
  | sa => cases h.1
  | maxp s t w inner =>
    apply Res.post_partial.2
    rintro ⟨b, st', rng'⟩ hc
    unfold Strat.call at hc
    split_ifs at hc
    · cases hc; exact h
    · split at hc
      · cases hc; exact h
      · cases hc
      · cases hc

/-! ### Strategies that never accept a worsening move -/

/-- Decorators around the default strategy. -/
def Strat.Greedy {n q : Nat} : Strat n q → Prop
  | .azp _ => True
  | .sa .. => False
  | .maxp _ _ _ inner => inner.Greedy

theorem Strat.Greedy.start {n q : Nat} {st : Strat n q} (h : st.Greedy) (v : ℚ) :
    (st.start v).Greedy := by
  induction st with
  | azp => trivial
  | sa => cases h
  | maxp s t w inner ih => exact ih h

/-- A positive answer: the difference is known. -/
theorem Strat.call_update {n q k : Nat} {ρ : Type} {expf : ℚ → ℚ} {idx : Fin k → Fin n}
    {attr : Fin k → ρ} {obj : Objective ρ} {a : Fin k} {r : Int} {L : Labels k} {st : Strat n q} :
    ∀ {rng : Rng} {st' : Strat n q} {rng' : Rng},
      st.call expf idx attr obj a r L rng = .ok (true, st', rng') →
      ∃ d, obj.update a r L attr = some d := by
  induction st with
  | azp v =>
    intro rng st' rng' h
    unfold Strat.call at h
    cases hu : obj.update a r L attr with
    | none => rw [hu] at h; cases h
    | some d => exact ⟨d, rfl⟩
  | sa =>
    intro rng st' rng' h
    unfold Strat.call at h
    cases hu : obj.update a r L attr with
    | none => rw [hu] at h; cases h
    | some d => exact ⟨d, rfl⟩
  | maxp s t v inner ih =>
    intro rng st' rng' h
    unfold Strat.call at h
    split_ifs at h
    · cases h
    · split at h
      · rename_i b i' r' hi
        cases h
        exact ih hi
      · cases h
      · cases h

theorem Strat.Greedy.call {n q k : Nat} {ρ : Type} {expf : ℚ → ℚ} {idx : Fin k → Fin n}
    {attr : Fin k → ρ} {obj : Objective ρ} {a : Fin k} {r : Int} {L : Labels k} {st : Strat n q} :
    ∀ {rng : Rng} {b : Bool} {st' : Strat n q} {rng' : Rng}, st.Greedy →
      st.call expf idx attr obj a r L rng = .ok (b, st', rng') →
      st'.Greedy ∧ (b = true → ∃ d, obj.update a r L attr = some d ∧ d ≤ 0) := by
  induction st with
  | azp v =>
    intro rng b st' rng' _ h
    unfold Strat.call at h
    cases hu : obj.update a r L attr with
    | none => rw [hu] at h; cases h
    | some d =>
      rw [hu] at h
      dsimp only at h
      split_ifs at h with hd
      · cases h; exact ⟨trivial, fun _ => ⟨d, rfl, hd⟩⟩
      · cases h; exact ⟨trivial, (fun h => by cases h)⟩
  | sa => intro _ _ _ _ h; cases h
  | maxp s t v inner ih =>
    intro rng b st' rng' hg h
    unfold Strat.call at h
    split_ifs at h
    · cases h; exact ⟨hg, (fun h => by cases h)⟩
    · split at h
      · rename_i b' i' r' hi
        cases h
        exact ⟨(ih hg hi).1, (ih hg hi).2⟩
      · cases h
      · cases h

section
variable {n q : Nat} {ρ : Type}

/-- One component under a greedy strategy. -/
theorem greedy_component (expf : ℚ → ℚ) {obj : Objective ρ} (he : obj.Exact)
    (idx : List (Fin n)) (hk : idx ≠ []) {adj : Adj idx.length}
    (hs : Symmetric adj) (init : Labels idx.length) (hc : AllContiguous adj init)
    (attr : Fin idx.length → ρ) (fuel : Nat) (st : Strat n q) (hst : st.Greedy) (rng : Rng) :
    (azpComp expf obj fuel idx adj init attr st rng).Post True True fun p =>
      (KeepsRegions adj init p.1 ∧ obj.call p.1 attr ≤ obj.call init attr) ∧ p.2.1.Greedy := by
  have hk' : 0 < idx.length := List.length_pos_iff.2 hk
  have hok : StratOk (Strat.ops (q := q) expf (fun i => idx.get i) attr obj) adj
      (fun L st => st.Greedy ∧ obj.call L attr ≤ obj.call init attr) True True := by
    intro labels st a r rng h1 h2 h3
    apply Res.post_partial.2
    rintro ⟨b, st', rng'⟩ hcall
    obtain ⟨h4, h5⟩ := h3.1.call hcall
    refine ⟨h4, ?_⟩
    dsimp only
    split_ifs with hb
    · obtain ⟨d, hd, hle⟩ := h5 hb
      rw [he a r labels attr d hd]
      linarith [h3.2]
    · exact h3.2
  have := azpComponent_post hs hok fuel init hk' hc (st.start (obj.call init attr))
    ⟨hst.start _, le_rfl⟩ (fun _ => 0) (fun h => absurd trivial h) rng
  apply this.mono id id
  rintro p ⟨h1, h2, h3, _⟩
  exact ⟨⟨⟨h2, reach_image h3⟩, h1.2⟩, h1.1⟩

/-- `AZP.fit` with a greedy strategy and the pairwise objective. -/
theorem greedy_azpFit (o : MstOrder) (expf : ℚ → ℚ) {metric : ρ → ρ → ℚ}
    (hm : ∀ x y, metric x y = metric y x) (h0 : ∀ x, metric x x = 0) {adj : Adj n}
    (hs : Symmetric adj) (attr : Fin n → ρ) (p : Int) (init : Labels n) (fuel : Nat)
    (st : Strat n q) (hst : st.Greedy) (rng : Rng) :
    (azpFit o expf (pairwise metric) fuel adj attr p (some init) st rng).Post True True fun q =>
      (pairwise metric).call q.1 attr ≤ (pairwise metric).call init attr ∧ q.2.1.Greedy := by
  have he : (pairwise metric).Exact := pairwise_exact hm h0
  have := fitWith_comp (σ := Strat n q) o (adj := adj) attr
    (comp := azpComp expf (pairwise metric) fuel) (S := fun st => st.Greedy)
    (Q := fun idx init out => KeepsRegions (subAdj adj idx) init out ∧
      (pairwise metric).call out (fun i => attr (idx.get i)) ≤
        (pairwise metric).call init (fun i => attr (idx.get i))) (R := True) (T := True) p
    (some init) (fun h => absurd trivial h) (by
      intro idx init' st rng _ _ _ hcont hst
      by_cases hk : idx = []
      · unfold azpComp
        rw [azpComponent_empty _ _ (by simp [hk])]
        trivial
      · exact greedy_component expf he idx hk (subAdj_symm hs idx) init' hcont _ fuel st hst rng)
    st hst rng
  apply this.mono id id
  rintro ⟨labels, st', rng'⟩ ⟨hg, lab, ⟨hc1, _, rfl⟩, hf⟩
  exact ⟨(Props.fitted_pairwise_le metric attr hc1 hf).2, hg⟩

end

/-! ### The best partition -/

section
variable {ς : Type} {n q : Nat} {ρ : Type} {ls : LocalSearch ς n q} {obj : Objective ρ}
  {attr : Fin n → ρ} {maxP : Nat} {S : ς → Prop}

/-- `v` is a value at most as large as the one of the best partition so far. -/
def BestLe (best : Option (Labels n × ℚ)) (v : ℚ) : Prop := ∃ L w, best = some (L, w) ∧ w ≤ v

theorem searchInner_best
    (hfit : ∀ init st r, S st → (ls.fit maxP init st r).Post True True fun p =>
      (∀ L, p.1 = some L → obj.call L attr ≤ obj.call init attr) ∧ S p.2.1) :
    ∀ (ps : List (List (List (Fin n)))) (best : Option (Labels n × ℚ)) (st : ς) (r : Rng), S st →
      (∀ L v, best = some (L, v) → v = obj.call L attr) →
      (searchInner ls obj attr maxP ps best st r).Post True True fun p =>
        S p.2.1 ∧ (∀ L v, p.1 = some (L, v) → v = obj.call L attr) ∧
        (∀ v, BestLe best v → BestLe p.1 v) ∧
        ∀ P ∈ ps, ∀ L, labelsOfPartition P = .ok L → BestLe p.1 (obj.call L attr) := by
  intro ps
  induction ps with
  | nil => intro best st r h hb; exact ⟨h, hb, fun _ h => h, fun _ h => by cases h⟩
  | cons P ps ih =>
    intro best st r hst hb
    unfold searchInner
    refine Res.Post.bind (Q := fun init => labelsOfPartition P = .ok init)
      (Res.post_partial.2 fun a h => h) ?_
    intro init _ hinit
    refine Res.Post.bind (hfit init st r hst) ?_
    rintro ⟨out, st', r'⟩ _ ⟨h1, h2⟩
    dsimp only at h1 h2 ⊢
    cases out with
    | none => trivial
    | some L =>
      have h1 := h1 L rfl
      dsimp only
      generalize hb' : (match best with
        | none => some (L, obj.call L attr)
        | some (L', v') => if obj.call L attr < v' then some (L, obj.call L attr)
          else some (L', v')) = best'
      have hval : ∀ L v, best' = some (L, v) → v = obj.call L attr := by
        subst hb'
        intro L' v' he
        cases best with
        | none => cases he; rfl
        | some b =>
          dsimp only at he
          split_ifs at he
          · cases he; rfl
          · cases he; exact hb _ _ rfl
      have hle : BestLe best' (obj.call L attr) := by
        subst hb'
        cases best with
        | none => exact ⟨_, _, rfl, le_rfl⟩
        | some b =>
          dsimp only
          split_ifs with h
          · exact ⟨_, _, rfl, le_rfl⟩
          · exact ⟨_, _, rfl, not_lt.1 h⟩
      have hkeep : ∀ v, BestLe best v → BestLe best' v := by
        subst hb'
        rintro v ⟨L', w, rfl, hw⟩
        dsimp only
        split_ifs with h
        · exact ⟨_, _, rfl, h.le.trans hw⟩
        · exact ⟨_, _, rfl, hw⟩
      refine Eq.mpr (congrArg (fun b => Res.Post True True _ (searchInner ls obj attr maxP ps b st' r'))
        hb') ?_
      apply (ih best' st' r' h2 hval).mono id id
      rintro p ⟨g1, g2, g3, g4⟩
      refine ⟨g1, g2, fun v hv => g3 v (hkeep v hv), ?_⟩
      intro P' hP' L' hL'
      rcases List.mem_cons.1 hP' with rfl | hP'
      · rw [hL'] at hinit
        cases hinit
        obtain ⟨L2, w, e, hw⟩ := g3 _ hle
        exact ⟨L2, w, e, hw.trans h1⟩
      · exact g4 P' hP' L' hL'

theorem searchOuter_best {spat : Fin n → Fin q → ℚ} {thr : Fin q → ℚ}
    (hwrap : ∀ st, S st → S (ls.wrap spat thr st))
    (hfit : ∀ init st r, S st → (ls.fit maxP init st r).Post True True fun p =>
      (∀ L, p.1 = some L → obj.call L attr ≤ obj.call init attr) ∧ S p.2.1)
    (feasible : List (List (List (Fin n)))) :
    ∀ (rounds : List (List (List (Fin n)))) (best : Option (Labels n × ℚ)) (st : ς) (r : Rng), S st →
      (∀ L v, best = some (L, v) → v = obj.call L attr) →
      (searchOuter ls obj attr maxP spat thr feasible rounds best st r).Post True True fun p =>
        (∀ L v, p.1 = some (L, v) → v = obj.call L attr) ∧
        (∀ v, BestLe best v → BestLe p.1 v) ∧
        (rounds ≠ [] → ∀ P ∈ feasible, ∀ L, labelsOfPartition P = .ok L →
          BestLe p.1 (obj.call L attr)) := by
  intro rounds
  induction rounds with
  | nil => intro best st r h hb; exact ⟨hb, fun _ h => h, fun h => absurd rfl h⟩
  | cons x rounds ih =>
    intro best st r hst hb
    unfold searchOuter
    refine Res.Post.bind (searchInner_best hfit feasible best _ r (hwrap st hst) hb) ?_
    rintro ⟨best', st', r'⟩ _ ⟨g1, g2, g3, g4⟩
    dsimp only at g1 g2 g3 g4 ⊢
    apply (ih best' st' r' g1 g2).mono id id
    rintro p ⟨k1, k2, k3⟩
    exact ⟨k1, fun v hv => k2 v (g3 v hv), fun _ P hP L hL => k2 _ (g4 P hP L hL)⟩

end

/-! ### The threshold during basic tabu search -/

section
variable {σ : Type} {k : Nat} {ρ : Type} {ops : StratOps σ k} {obj : Objective ρ} {attr : Fin k → ρ}
  {adj : Adj k} {J : Labels k → σ → Prop}

/-- `J` survives the calls of the strategy; a positive answer means that it also holds after the move. -/
def CallKeeps (ops : StratOps σ k) (J : Labels k → σ → Prop) : Prop :=
  ∀ L st a r rng, J L st → (ops.call st a r L rng).Post True True fun p =>
    J L p.2.1 ∧ (p.1 = true → J (moved L a r) p.2.1)

theorem tryMove_keeps (hJ : CallKeeps ops J) (m : Move k) (s : TabuState σ k)
    (hc : AllContiguous adj s.labels) (h : J s.labels s.strat) :
    (tryMove ops adj m s).Post True True fun p =>
      AllContiguous adj p.2.labels ∧ J p.2.labels p.2.strat := by
  unfold tryMove
  refine Res.Post.bind (hJ s.labels s.strat m.area m.new s.rng h) ?_
  rintro ⟨al, st, rng⟩ _ ⟨h1, h2⟩
  dsimp only at h1 h2 ⊢
  split_ifs with ha
  · obtain ⟨b, L', e, _, h4, h5, h6⟩ := tabuMakeMove_spec m.area m.new hc s.tabu
    rw [e]
    refine ⟨h6, ?_⟩
    change J L' st
    cases b with
    | true => rw [h4 rfl]; exact h2 ha
    | false => rw [h5 rfl]; exact h1
  · exact ⟨hc, h1⟩

theorem aspiration_keeps (hJ : CallKeeps ops J) (s : TabuState σ k)
    (hc : AllContiguous adj s.labels) (h : J s.labels s.strat) :
    (aspiration ops obj attr adj s).Post True True fun s' =>
      AllContiguous adj s'.labels ∧ J s'.labels s'.strat := by
  unfold aspiration
  refine Res.Post.bind (Q := fun _ => True) (Res.post_partial.2 fun _ _ => trivial) ?_
  intro moves _ _
  split_ifs
  · exact ⟨hc, h⟩
  · refine Res.Post.bind (Q := fun _ => True) (Res.post_partial.2 fun _ _ => trivial) ?_
    rintro ⟨m, rng⟩ _ _
    refine Res.Post.bind (tryMove_keeps hJ m { s with rng := rng } hc h) ?_
    rintro ⟨b, s'⟩ _ h'
    exact h'

theorem basicElse_keeps (hJ : CallKeeps ops J) (best : Option (Nat × Move k × ℚ))
    (s : TabuState σ k) (hc : AllContiguous adj s.labels) (h : J s.labels s.strat) :
    (basicElse ops obj attr adj best s).Post True True fun p =>
      AllContiguous adj p.2.labels ∧ J p.2.labels p.2.strat := by
  unfold basicElse
  refine Res.Post.bind (aspiration_keeps hJ s hc h) ?_
  rintro s1 _ ⟨h1, h2⟩
  split_ifs
  · exact ⟨h1, h2⟩
  · cases best with
    | none => exact ⟨h1, h2⟩
    | some b =>
      dsimp only
      refine Res.Post.bind (tryMove_keeps hJ b.2.1 s1 h1 h2) ?_
      rintro ⟨b, s'⟩ _ h'
      exact h'

theorem basicRound_keeps (hJ : CallKeeps ops J) (s : TabuState σ k)
    (hc : AllContiguous adj s.labels) (h : J s.labels s.strat) :
    (basicRound ops obj attr adj s).Post True True fun p =>
      AllContiguous adj p.2.labels ∧ J p.2.labels p.2.strat := by
  unfold basicRound
  refine Res.Post.bind (Q := fun _ => True) (Res.post_partial.2 fun _ _ => trivial) ?_
  intro best _ _
  cases best with
  | none => exact basicElse_keeps hJ none s hc h
  | some b =>
    dsimp only
    split_ifs
    · refine Res.Post.bind (tryMove_keeps hJ b.2.1 s hc h) ?_
      rintro ⟨al, s'⟩ _ ⟨h1, h2⟩
      dsimp only at h1 h2 ⊢
      split_ifs
      · exact ⟨h1, h2⟩
      · exact basicElse_keeps hJ _ s' h1 h2
    · exact basicElse_keeps hJ _ s hc h

theorem basicLoop_keeps (hJ : CallKeeps ops J) (reps : Int) :
    ∀ (fuel : Nat) (s : TabuState σ k), AllContiguous adj s.labels → J s.labels s.strat →
      (basicLoop ops obj attr adj reps fuel s).Post True True fun s' =>
        AllContiguous adj s'.labels ∧ J s'.labels s'.strat := by
  intro fuel
  induction fuel with
  | zero => intro s _ _; unfold basicLoop; trivial
  | succ fuel ih =>
    intro s hc h
    unfold basicLoop
    refine Res.Post.bind (basicRound_keeps hJ (noteVisit reps s) hc h) ?_
    rintro ⟨d, s'⟩ _ ⟨h1, h2⟩
    dsimp only at h1 h2 ⊢
    split_ifs
    · exact ⟨h1, h2⟩
    · exact ih s' h1 h2

end

/-- Putting the components together when regions may have vanished. -/
theorem contiguous_of_parts {n : Nat} {adj : Adj n} {lab L' : Labels n} (hc : AllContiguous adj lab)
    (h0 : ∀ v, lab v ≠ -1)
    (h2 : ∀ c, c < nComponents adj →
      AllContiguous (subAdj adj (shown (compArray adj lab c)))
        (fun i => L' ((shown (compArray adj lab c)).get i)) ∧
      ∀ i, ∃ j, lab ((shown (compArray adj lab c)).get j) =
        L' ((shown (compArray adj lab c)).get i)) :
    AllContiguous adj L' := by
  have hmem : ∀ c x, x ∈ shown (compArray adj lab c) ↔ compLabels adj x = c := by
    intro c x
    rw [mem_shown, compArray_ne]
    exact ⟨fun h => h.1, fun h => ⟨h, h0 x⟩⟩
  have hfrom : ∀ v, ∃ u, compLabels adj u = compLabels adj v ∧ lab u = L' v := by
    intro v
    obtain ⟨i, hi⟩ := List.get_of_mem ((hmem (compLabels adj v) v).2 rfl)
    obtain ⟨j, hj⟩ := (h2 _ (compLabels_lt adj v)).2 i
    have := (hmem _ _).1 (List.get_mem (shown (compArray adj lab (compLabels adj v))) j)
    exact ⟨_, this, by rw [hj, hi]⟩
  intro v
  obtain ⟨i, hi⟩ := List.get_of_mem ((hmem (compLabels adj v) v).2 rfl)
  have hk := (h2 _ (compLabels_lt adj v)).1 i
  dsimp only at hk
  rw [hi] at hk
  refine ⟨⟨v, rfl⟩, ?_⟩
  have hsame : ∀ x, L' x = L' v → x ∈ shown (compArray adj lab (compLabels adj v)) := by
    intro x hx
    obtain ⟨u, hu1, hu3⟩ := hfrom v
    obtain ⟨w, hw1, hw3⟩ := hfrom x
    have huw : lab u = lab w := by rw [hu3, hw3, hx]
    have hp := (hc u).2 u rfl w huw.symm
    rw [hmem, ← hw1, ← hu1]
    exact (compLabels_eq_iff adj _ _).2 (sameIsland_symm (pathIn_sameIsland hp))
  intro a ha b hb
  obtain ⟨ia, hia⟩ := List.get_of_mem (hsame a ha)
  obtain ⟨ib, hib⟩ := List.get_of_mem (hsame b hb)
  have ha' : L' a = L' v := ha
  have hb' : L' b = L' v := hb
  have := hk.2 ia (by change L' _ = _; rw [hia, ha']) ib (by change L' _ = _; rw [hib, hb'])
  rw [← hia, ← hib]
  exact pathIn_lift (fun i hi => hi) this

/-- If some threshold is positive then a move that is not refused leaves no region empty. -/
theorem not_blocked_nonempty {k q : Nat} {sp : Fin k → Fin q → ℚ} {thr : Fin q → ℚ} {a : Fin k}
    {labels : Labels k} (hb : Strat.maxpBlocks sp thr a labels = false)
    (hm : MeetsThreshold labels sp thr) (hthr : ∃ j, 0 < thr j) :
    ∃ u, u ≠ a ∧ labels u = labels a := by
  by_contra hcon
  push Not at hcon
  obtain ⟨j, hj⟩ := hthr
  have h1 := hm a j
  have hsing : Finset.univ.filter (fun u => labels u = labels a) = {a} := by
    ext u
    simp only [Finset.mem_filter, Finset.mem_univ, true_and, Finset.mem_singleton]
    exact ⟨fun h => by_contra fun hne => hcon u hne h, fun h => by rw [h]⟩
  rw [hsing, Finset.sum_singleton] at h1
  unfold Strat.maxpBlocks at hb
  rw [if_pos (by
    rw [List.any_eq_true]
    exact ⟨j, List.mem_finRange j, by simp only [ne_eq, decide_eq_true_eq]; linarith⟩)] at hb
  rw [Bool.not_eq_false', List.all_eq_true] at hb
  have h2 := hb j (List.mem_finRange j)
  rw [decide_eq_true_eq] at h2
  have hw : whereEq labels (labels a) = [a] := by
    unfold whereEq
    have : ∀ l : List (Fin k), l.Nodup → a ∈ l →
        l.filter (fun i => decide (labels i = labels a)) = [a] := by
      intro l hnd hmem
      induction l with
      | nil => cases hmem
      | cons x l ih =>
        rw [List.nodup_cons] at hnd
        by_cases hx : x = a
        · subst hx
          rw [List.filter_cons_of_pos (by simp)]
          congr 1
          rw [List.filter_eq_nil_iff]
          intro y hy
          simp only [decide_eq_true_eq]
          exact hcon y (fun h => hnd.1 (h ▸ hy))
        · rw [List.filter_cons_of_neg (by simpa using hcon x hx)]
          exact ih hnd.2 ((List.mem_cons.1 hmem).resolve_left (fun h => hx h.symm))
    exact this _ (List.nodup_finRange k) (List.mem_finRange a)
  rw [hw] at h2
  simp only [List.map_cons, List.map_nil, List.sum_cons, List.sum_nil] at h2
  linarith

/-- What the decorated strategy preserves: labels of the start, the threshold and, if some threshold
is positive, every region. -/
def ThrInv {k q : Nat} (sp : Fin k → Fin q → ℚ) (thr : Fin q → ℚ) (init L : Labels k) : Prop :=
  (∀ i, ∃ j, init j = L i) ∧ (MeetsThreshold init sp thr →
    MeetsThreshold L sp thr ∧ ((∃ j, 0 < thr j) → ∀ i, ∃ j, L j = init i))

theorem ThrInv.refl {k q : Nat} (sp : Fin k → Fin q → ℚ) (thr : Fin q → ℚ) (init : Labels k) :
    ThrInv sp thr init init :=
  ⟨fun i => ⟨i, rfl⟩, fun h => ⟨h, fun _ i => ⟨i, rfl⟩⟩⟩

theorem thrInv_callKeeps {n q k : Nat} {ρ : Type} {spat : Fin n → Fin q → ℚ} {thr : Fin q → ℚ}
    (expf : ℚ → ℚ) (metric : ρ → ρ → ℚ) (hpos : ∀ v j, 0 ≤ spat v j) (idx : Fin k → Fin n)
    (attr : Fin k → ρ) (init : Labels k) :
    CallKeeps (Strat.ops (q := q) expf idx attr (pairwise metric)) fun L st =>
      ThrInv (fun i => spat (idx i)) thr init L ∧ st.HasThr spat thr := by
  rintro L st a r rng ⟨h, hst⟩
  apply Res.post_partial.2
  rintro ⟨b, st', rng'⟩ hcall
  obtain ⟨h4, h5⟩ := hst.call hcall
  refine ⟨⟨h, h4⟩, ?_⟩
  intro hb
  dsimp only at hb
  subst hb
  obtain ⟨d, hd⟩ := Strat.call_update hcall
  have hr := (pairwise_update_iff.1 hd).1
  refine ⟨⟨?_, fun hi => ⟨not_blocked_meets (h5 rfl) hr (fun j => hpos _ j) (h.2 hi).1, ?_⟩⟩, h4⟩
  · intro i
    by_cases hia : i = a
    · obtain ⟨w, hw⟩ := hr
      obtain ⟨j, hj⟩ := h.1 w
      exact ⟨j, by rw [hia, moved_self, hj, hw]⟩
    · rw [moved_of_ne hia]; exact h.1 i
  · intro hthr i
    obtain ⟨j, hj⟩ := (h.2 hi).2 hthr i
    by_cases hja : j = a
    · obtain ⟨u, hu1, hu2⟩ := not_blocked_nonempty (h5 rfl) (h.2 hi).1 hthr
      exact ⟨u, by rw [moved_of_ne hu1, hu2, ← hja, hj]⟩
    · exact ⟨j, by rw [moved_of_ne hja, hj]⟩

/-- Basic tabu search with the decorated strategy keeps contiguity and the threshold, and the regions
if some threshold is positive. -/
theorem maxp_basicTabuFit {n q : Nat} {ρ : Type} {spat : Fin n → Fin q → ℚ} {thr : Fin q → ℚ}
    (o : MstOrder) (expf : ℚ → ℚ) (metric : ρ → ρ → ℚ) (hpos : ∀ v j, 0 ≤ spat v j) {adj : Adj n}
    (attr : Fin n → ρ) (p : Int) (init : Labels n) (h0 : ∀ v, init v ≠ -1)
    (hm : MeetsThreshold init spat thr) (fuel : Nat) (len : Option Nat) (reps : Int) (st : Strat n q)
    (hst : st.HasThr spat thr) (rng : Rng) :
    (basicTabuFit o expf (pairwise metric) fuel len reps adj attr p (some init) st rng).Post True True
      fun q => q.2.1.HasThr spat thr ∧ AllContiguous adj q.1 ∧ MeetsThreshold q.1 spat thr ∧
        (∀ v, ∃ u, init u = q.1 v) ∧ ((∃ j, 0 < thr j) → ∀ v, ∃ u, q.1 u = init v) := by
  have := fitWith_comp (σ := Strat n q) o (adj := adj) attr
    (comp := fun idx a init at' st rng => basicComponent
      (Strat.ops expf (fun i => idx.get i) at' (pairwise metric)) (pairwise metric) at' a len reps fuel
      init (st.start ((pairwise metric).call init at')) rng)
    (S := fun st => st.HasThr spat thr)
    (Q := fun idx init out => AllContiguous (subAdj adj idx) out ∧
      ThrInv (fun i => spat (idx.get i)) thr init out) (R := True) (T := True) p
    (some init) (fun h => absurd trivial h) (by
      intro idx init' st rng hnd hlen hne hcont hst
      unfold basicComponent
      split_ifs
      · exact ⟨⟨hcont, .refl _ _ _⟩, hst.start _⟩
      · refine Res.Post.bind (basicLoop_keeps (thrInv_callKeeps expf metric hpos
          (fun i => idx.get i) _ init') reps fuel _ hcont ⟨.refl _ _ _, hst.start _⟩) ?_
        rintro s _ ⟨h1, h2, h3⟩
        exact ⟨⟨h1, h2⟩, h3⟩) st hst rng
  apply Res.Post.mono this id id
  rintro ⟨L, st', rng'⟩ ⟨h1, lab, ⟨hl1, hl2, rfl⟩, hfit⟩
  obtain ⟨g1, g2⟩ := fit_result hfit
  have hcont := contiguous_of_parts hl1 h0 (fun c hc => ⟨(g2 c hc).1, (g2 c hc).2.1⟩)
  have hmemc : ∀ c u, u ∈ shown (compArray adj lab c) ↔ compLabels adj u = c := by
    intro c u
    rw [mem_shown, compArray_ne]
    exact ⟨fun h => h.1, fun h => ⟨h, h0 u⟩⟩
  have hcl : ∀ (M : Labels n), AllContiguous adj M → ∀ c u v, M u = M v →
      v ∈ shown (compArray adj lab c) → u ∈ shown (compArray adj lab c) := by
    intro M hM c u v huv hv
    rw [hmemc] at hv ⊢
    rw [← hv]
    exact (compLabels_eq_iff adj _ _).2 (sameIsland_of_label hM huv)
  have hmeet : ∀ c, MeetsThreshold (fun i => lab ((shown (compArray adj lab c)).get i))
      (fun i => spat ((shown (compArray adj lab c)).get i)) thr := by
    intro c
    rw [meets_component (shown_nodup _) (hcl lab hl1 c)]
    exact fun w _ j => hm w j
  refine ⟨h1, hcont, ?_, ?_, ?_⟩
  · intro v j
    have hq := ((g2 _ (compLabels_lt adj v)).2.2 (hmeet _)).1
    rw [meets_component (shown_nodup _) (hcl L hcont _)] at hq
    exact hq v ((hmemc _ v).2 rfl) j
  · intro v
    obtain ⟨i, hi⟩ := List.get_of_mem ((hmemc (compLabels adj v) v).2 rfl)
    obtain ⟨j, hj⟩ := (g2 _ (compLabels_lt adj v)).2.1 i
    dsimp only at hj
    exact ⟨_, by rw [hj, hi]⟩
  · intro hthr v
    obtain ⟨i, hi⟩ := List.get_of_mem ((hmemc (compLabels adj v) v).2 rfl)
    obtain ⟨j, hj⟩ := ((g2 _ (compLabels_lt adj v)).2.2 (hmeet _)).2 hthr i
    dsimp only at hj
    exact ⟨_, hj.trans (by rw [hi])⟩

end Region
