import Verif.Lemmas.AzpReact
import Verif.Lemmas.MaxPMore
/-
The basic tabu search with an objective whose `update` raises rather than empty a region, as
`ObjectiveFunctionCenter` does.
-/
namespace Region

open Spec Relation

/-- `update` only returns for moves into a region with areas that leave an area behind. -/
def Objective.Guarded {ρ : Type} (obj : Objective ρ) : Prop :=
  ∀ {k : Nat} (a : Fin k) (r : Int) (L : Labels k) (attr : Fin k → ρ) (d : ℚ),
    obj.update a r L attr = some d → (∃ i, L i = r) ∧ (L a = r ∨ ∃ b, b ≠ a ∧ L b = L a)

theorem centered_guarded {ρ : Type} (metric : ρ → ρ → ℚ) (center : List ρ → ρ)
    (reduction : List ℚ → ℚ) : (centered metric center reduction).Guarded := by
  intro k a r L attr d h
  obtain ⟨h1, i, hi⟩ := (centerUpdate_some metric center reduction).1 ⟨d, h⟩
  refine ⟨h1, ?_⟩
  by_cases hia : i = a
  · subst hia
    rw [moved_self] at hi
    exact .inl hi.symm
  · rw [moved_of_ne hia] at hi
    exact .inr ⟨i, hia, hi⟩

section
variable {σ : Type} {k : Nat} {ρ : Type} {ops : StratOps σ k} {obj : Objective ρ} {attr : Fin k → ρ}
  {adj : Adj k} {P : σ → Prop}

/-- The strategy only allows moves for which `update` returns a value that is not positive. -/
def OnlyLowers (ops : StratOps σ k) (obj : Objective ρ) (attr : Fin k → ρ) (P : σ → Prop) : Prop :=
  ∀ st a r L rng, P st →
    (ops.call st a r L rng).Post True False fun p =>
      P p.2.1 ∧ (p.1 = true → ∃ d, obj.update a r L attr = some d ∧ d ≤ 0)

theorem moved_stays {L : Labels k} {a : Fin k} {r : Int} (h : L a = r) : moved L a r = L := by
  funext v
  simp only [moved]
  split_ifs with hv
  · rw [hv, h]
  · rfl

theorem tryMove_guard (hg : obj.Guarded) (hop : OnlyLowers ops obj attr P) {s : TabuState σ k}
    (m : Move k) (hP : P s.strat) (hc : AllContiguous adj s.labels) :
    (tryMove ops adj m s).Post True False fun p =>
      P p.2.strat ∧ AllContiguous adj p.2.labels ∧ p.2.visited = s.visited ∧ p.2.stop = s.stop ∧
      (p.2.labels = s.labels ∨ LowerMove adj obj attr s.labels p.2.labels) ∧
      (p.1 = true → Admissible adj s.labels m.area m.new →
        LowerMove adj obj attr s.labels p.2.labels) := by
  unfold tryMove
  refine (hop s.strat m.area m.new s.labels s.rng hP).bind ?_
  rintro ⟨al, st, rng⟩ _ ⟨hP', hal⟩
  dsimp only at hP' hal ⊢
  cases al with
  | false => exact ⟨hP', hc, rfl, rfl, .inl rfl, fun h => by cases h⟩
  | true =>
    obtain ⟨d, hd, hle⟩ := hal rfl
    obtain ⟨b, L', h1, h2, h3, h4, h5⟩ := tabuMakeMove_spec m.area m.new hc s.tabu
    rw [if_pos rfl, h1, Res.bind_ok]
    have hlow : b = true → s.labels m.area ≠ m.new → LowerMove adj obj attr s.labels L' := by
      intro hb hne
      obtain ⟨hr, hk⟩ := hg _ _ _ _ _ hd
      refine ⟨m.area, m.new, d, hne, hd, hle, h3 hb, h5, ?_⟩
      rw [h3 hb]
      exact moved_same_image hr hk
    refine ⟨hP', h5, rfl, rfl, ?_, fun _ hm => hlow (h2.2 (moved_contiguous hc hm)) hm.1⟩
    cases b with
    | false => exact .inl (h4 rfl)
    | true =>
      by_cases hne : s.labels m.area = m.new
      · exact .inl ((h3 rfl).trans (moved_stays hne))
      · exact .inr (hlow rfl hne)

/-- What every step keeps. -/
structure GuardInv (adj : Adj k) (obj : Objective ρ) (attr : Fin k → ρ) (P : σ → Prop)
    (s s' : TabuState σ k) : Prop where
  strat : P s'.strat
  cont : AllContiguous adj s'.labels
  visited : s'.visited = s.visited
  stop : s'.stop = s.stop
  reach : ReflTransGen (LowerMove adj obj attr) s.labels s'.labels

theorem reach_of_or {L L' : Labels k} (h : L' = L ∨ LowerMove adj obj attr L L') :
    ReflTransGen (LowerMove adj obj attr) L L' := by
  rcases h with rfl | h
  · exact .refl
  · exact .single h

theorem lowerMoves_image {L L' : Labels k} (h : ReflTransGen (LowerMove adj obj attr) L L') (x : Int) :
    (∃ i, L' i = x) ↔ ∃ i, L i = x := by
  induction h with
  | refl => exact Iff.rfl
  | tail _ h ih =>
    obtain ⟨_, _, _, _, _, _, _, _, himg⟩ := h
    exact (himg x).trans ih

theorem aspiration_guard (hg : obj.Guarded) (hop : OnlyLowers ops obj attr P) {s : TabuState σ k}
    (hP : P s.strat) (hc : AllContiguous adj s.labels) :
    (aspiration ops obj attr adj s).Post True False (GuardInv adj obj attr P s) := by
  unfold aspiration
  have himp : ∀ ms : List (Move k),
      (improvingTabus obj attr s.labels ms).Post True False fun _ => True := by
    intro ms
    induction ms with
    | nil => trivial
    | cons m ms ih =>
      unfold improvingTabus updateOf
      split_ifs
      · cases obj.update m.area m.new s.labels attr with
        | none => trivial
        | some d => exact ih.bind fun _ _ _ => trivial
      · exact ih
  refine (himp _).bind fun moves _ _ => ?_
  split_ifs with hnil
  · exact ⟨hP, hc, rfl, rfl, .refl⟩
  · obtain ⟨m, _, hr⟩ := randomElementFrom_ne_nil hnil s.rng
    rw [hr, Res.bind_ok]
    refine (tryMove_guard hg hop (s := { s with rng := s.rng.next }) m hP hc).bind ?_
    rintro ⟨b, s'⟩ _ ⟨h1, h2, h3, h4, h5, _⟩
    exact ⟨h1, h2, h3, h4, reach_of_or h5⟩

theorem basicElse_guard (hg : obj.Guarded) (hop : OnlyLowers ops obj attr P) {s : TabuState σ k}
    (hP : P s.strat) (hc : AllContiguous adj s.labels) (best : Option (Nat × Move k × ℚ)) :
    (basicElse ops obj attr adj best s).Post True False fun p =>
      GuardInv adj obj attr P s p.2 ∧ p.1 = s.stop := by
  unfold basicElse
  refine (aspiration_guard hg hop hP hc).bind fun s1 _ h1 => ?_
  split_ifs with hst
  · exact ⟨h1, by rw [← h1.stop, hst]⟩
  · have hfalse : false = s.stop := by
      rw [← h1.stop]; simpa using hst
    rcases best with _ | ⟨j, m, d⟩
    · exact ⟨h1, hfalse⟩
    · refine (tryMove_guard hg hop m h1.strat h1.cont).bind ?_
      rintro ⟨b, s2⟩ _ ⟨h2, h3, h4, h5, h6, _⟩
      exact ⟨⟨h2, h3, h4.trans h1.visited, h5.trans h1.stop, h1.reach.trans (reach_of_or h6)⟩, hfalse⟩

theorem basicRound_guard (hg : obj.Guarded) (ht : obj.Total) (hop : OnlyLowers ops obj attr P)
    {s : TabuState σ k} (hP : P s.strat) (hc : AllContiguous adj s.labels) :
    (basicRound ops obj attr adj s).Post True False fun p =>
      GuardInv adj obj attr P s p.2 ∧ (p.1 = true → s.stop = true) ∧
      (s.stop = true → p.1 = true ∨ LowerMove adj obj attr s.labels p.2.labels) := by
  have hadm : ∀ m ∈ possibleMoves adj s.labels s.tabu, Admissible adj s.labels m.area m.new :=
    fun m hm => (possibleMoves_admissible hm).2.1
  have hupd : ∀ m ∈ possibleMoves adj s.labels s.tabu,
      ∃ d, obj.update m.area m.new s.labels attr = some d := by
    intro m hm
    obtain ⟨_, ⟨u, hu, _⟩, hb, _⟩ := hadm m hm
    exact ht _ _ _ _ ⟨u, hu⟩ hb
  have helse : ∀ (best : Option (Nat × Move k × ℚ)) (s1 : TabuState σ k),
      GuardInv adj obj attr P s s1 →
      (basicElse ops obj attr adj best s1).Post True False fun p =>
      GuardInv adj obj attr P s p.2 ∧ (p.1 = true → s.stop = true) ∧
      (s.stop = true → p.1 = true ∨ LowerMove adj obj attr s.labels p.2.labels) := by
    intro best s1 h1
    refine (basicElse_guard hg hop h1.strat h1.cont best).mono id id ?_
    rintro p ⟨h2, h3⟩
    refine ⟨⟨h2.strat, h2.cont, h2.visited.trans h1.visited, h2.stop.trans h1.stop,
      h1.reach.trans h2.reach⟩, fun h => ?_, fun h => .inl ?_⟩
    · rw [← h1.stop, ← h3, h]
    · rw [h3, h1.stop, h]
  have h0 : GuardInv adj obj attr P s s := ⟨hP, hc, rfl, rfl, .refl⟩
  unfold basicRound
  refine ((bestMove_post hupd 0 none).mono (fun h => h.elim) id fun _ h => h).bind ?_
  intro best _ hb
  rcases best with _ | ⟨j, m, d⟩
  · exact helse _ _ h0
  · dsimp only at hb ⊢
    obtain ⟨hb1, hb2, _⟩ := hb
    obtain ⟨_, hjm, hd⟩ := hb1.resolve_left (by simp)
    have hm : m ∈ possibleMoves adj s.labels s.tabu := List.mem_of_getElem? hjm
    split_ifs with hle
    · refine (tryMove_guard hg hop m hP hc).bind ?_
      rintro ⟨b, s1⟩ _ ⟨h1, h2, h3, h4, h5, h6⟩
      have hinv : GuardInv adj obj attr P s s1 := ⟨h1, h2, h3, h4, reach_of_or h5⟩
      dsimp only at h6 ⊢
      cases b with
      | true => exact ⟨hinv, fun h => (by cases h), fun _ => .inr (h6 rfl (hadm m hm))⟩
      | false =>
        rw [if_neg (by simp)]
        exact helse _ _ hinv
    · exact helse _ _ h0

/-- The loop, given what a round does. -/
theorem basicLoop_of {R : Prop} {Inv : TabuState σ k → Prop} {init : Labels k} (reps : Int)
    (hround : ∀ s, Inv s → (basicRound ops obj attr adj (noteVisit reps s)).Post R False fun p =>
      Inv p.2 ∧ p.2.visited = s.visited ++ [arrayList s.labels] ∧
      ReflTransGen (LowerMove adj obj attr) s.labels p.2.labels ∧
      ((noteVisit reps s).stop = true → p.1 = true ∨ LowerMove adj obj attr s.labels p.2.labels))
    (T : Prop) : ∀ (fuel : Nat) (s : TabuState σ k), Inv s →
      (∀ x, (∃ i, s.labels i = x) ↔ ∃ i, init i = x) →
      (¬ T → obj.Exact ∧ NoTies init obj attr ∧
        roomLeft ((relabelings init).image arrayList) reps s.visited +
          better init (fun l => obj.call l attr) (obj.call s.labels attr) < fuel) →
      (basicLoop ops obj attr adj reps fuel s).Post R T fun s' =>
        Inv s' ∧ ReflTransGen (LowerMove adj obj attr) s.labels s'.labels := by
  intro fuel
  induction fuel with
  | zero =>
    intro s _ _ hf
    change T
    by_contra hT
    have := (hf hT).2.2
    omega
  | succ fuel ih =>
    intro s hP himg hf
    unfold basicLoop
    refine ((hround s hP).mono id False.elim fun _ h => h).bind ?_
    rintro ⟨done, s'⟩ _ ⟨hi', hv, hreach, hstop⟩
    have himg' : ∀ x, (∃ i, s'.labels i = x) ↔ ∃ i, init i = x :=
      fun x => (lowerMoves_image hreach x).trans (himg x)
    dsimp only at hv hstop ⊢
    cases done with
    | true => exact ⟨hi', hreach⟩
    | false =>
      rw [if_neg (by simp)]
      refine (ih s' hi' himg' ?_).mono id id ?_
      · intro hT
        obtain ⟨he, hnt, hlt⟩ := hf hT
        refine ⟨he, hnt, ?_⟩
        have hle := lowerMoves_le he hreach
        have hbet : better init (fun l => obj.call l attr) (obj.call s'.labels attr) ≤
            better init (fun l => obj.call l attr) (obj.call s.labels attr) := by
          apply Finset.card_le_card
          intro x hx
          simp only [Finset.mem_filter] at hx ⊢
          exact ⟨hx.1, hx.2.trans_le hle⟩
        have hmem : arrayList s.labels ∈ (relabelings init).image arrayList :=
          Finset.mem_image_of_mem _ (mem_relabelings.2 fun v => (himg _).1 ⟨v, rfl⟩)
        rw [hv]
        by_cases hc : (s.visited.count (arrayList s.labels) : Int) < reps
        · have := roomLeft_lt hmem hc
          omega
        · have hroom : roomLeft ((relabelings init).image arrayList) reps
              (s.visited ++ [arrayList s.labels]) ≤
              roomLeft ((relabelings init).image arrayList) reps s.visited := by
            apply Finset.sum_le_sum
            intro x _
            have : s.visited.count x ≤ (s.visited ++ [arrayList s.labels]).count x := by
              rw [List.count_append]; omega
            omega
          have hstop' := (hstop (by
            change (s.stop || decide (reps ≤ (s.visited.count (arrayList s.labels) : Int))) = true
            simp [not_lt.1 hc])).resolve_left (by simp)
          have hl := lowerMove_lt he hnt himg hstop'
          have := better_lt (init := init) (g := fun l => obj.call l attr) hl
            (mem_relabelings.2 fun v => (himg' _).1 ⟨v, rfl⟩)
          omega
      · rintro s2 ⟨h1, h3⟩
        exact ⟨h1, hreach.trans h3⟩

theorem basicComponent_of {R : Prop} {Inv : TabuState σ k → Prop} {init : Labels k} (len : Option Nat)
    (reps : Int)
    (hround : ∀ s, Inv s → (basicRound ops obj attr adj (noteVisit reps s)).Post R False fun p =>
      Inv p.2 ∧ p.2.visited = s.visited ++ [arrayList s.labels] ∧
      ReflTransGen (LowerMove adj obj attr) s.labels p.2.labels ∧
      ((noteVisit reps s).stop = true → p.1 = true ∨ LowerMove adj obj attr s.labels p.2.labels))
    (hinv : ∀ s, Inv s → P s.strat ∧ AllContiguous adj s.labels) {st : σ} (hst : P st)
    (hc : AllContiguous adj init) (hinit : ∀ rng, Inv ⟨init, ⟨[], len⟩, [], false, st, rng⟩)
    (fuel : Nat) (T : Prop) (hT : ¬ T → obj.Exact ∧ NoTies init obj attr ∧
      numRegions init ^ k * (reps.toNat + 1) < fuel) (rng : Rng) :
    (basicComponent ops obj attr adj len reps fuel init st rng).Post R T fun p =>
      P p.2.1 ∧ KeepsRegions adj init p.1 ∧
      ReflTransGen (LowerMove adj obj attr) init p.1 := by
  unfold basicComponent
  split_ifs with h1
  · exact ⟨hst, ⟨hc, fun _ => Iff.rfl⟩, .refl⟩
  · refine (basicLoop_of (init := init) reps hround T fuel _ (hinit rng) (fun _ => Iff.rfl) ?_).bind ?_
    · intro hnT
      obtain ⟨he, h2, h3⟩ := hT hnT
      refine ⟨he, h2, ?_⟩
      have hr := roomLeft_le ((relabelings init).image arrayList) reps []
      have hb := better_le init (fun l => obj.call l attr) (obj.call init attr)
      have hcard : ((relabelings init).image arrayList).card ≤ numRegions init ^ k := by
        rw [← card_relabelings]; exact Finset.card_image_le
      have := Nat.mul_le_mul_right reps.toNat hcard
      change roomLeft ((relabelings init).image arrayList) reps [] +
        better init (fun l => obj.call l attr) (obj.call init attr) < fuel
      rw [Nat.mul_add, Nat.mul_one] at h3
      omega
    · rintro s _ ⟨h2, h4⟩
      exact ⟨(hinv s h2).1, ⟨(hinv s h2).2, lowerMoves_image h4⟩, h4⟩

theorem basicComponent_guard (hg : obj.Guarded) (ht : obj.Total) (hop : OnlyLowers ops obj attr P)
    {init : Labels k} (hc : AllContiguous adj init) (len : Option Nat) (reps : Int) (fuel : Nat)
    (T : Prop) (hT : ¬ T → obj.Exact ∧ NoTies init obj attr ∧
      numRegions init ^ k * (reps.toNat + 1) < fuel) {st : σ} (hst : P st) (rng : Rng) :
    (basicComponent ops obj attr adj len reps fuel init st rng).Post True T fun p =>
      P p.2.1 ∧ KeepsRegions adj init p.1 ∧
      ReflTransGen (LowerMove adj obj attr) init p.1 := by
  refine basicComponent_of (Inv := fun s => P s.strat ∧ AllContiguous adj s.labels) len reps ?_
    (fun _ h => h) hst hc (fun _ => ⟨hst, hc⟩) fuel T hT rng
  rintro s ⟨h1, h2⟩
  refine (basicRound_guard hg ht hop (s := noteVisit reps s) h1 h2).mono id id ?_
  rintro p ⟨h3, -, h4⟩
  exact ⟨⟨h3.strat, h3.cont⟩, h3.visited, h3.reach, h4⟩

/-! ### Tabu lists of length 0 and 1 -/

theorem Tabu.mem_append_short {t : Tabu k} {l : Nat} (hl : t.maxlen = some l) (h1 : l ≤ 1) {m x : Move k}
    (h : x ∈ (t.append m).items) : x = m := by
  unfold Tabu.append at h
  rw [hl] at h
  dsimp only at h
  have : t.items.length ≤ t.items.length + 1 - l := by omega
  have h' := (List.drop_sublist_drop_left (t.items ++ [m]) this).subset h
  simpa using h'

theorem moved_undo {L : Labels k} {a : Fin k} {r : Int} : moved (moved L a r) a (L a) = L := by
  funext v
  simp only [moved]
  split_ifs with hv
  · rw [hv]
  · rfl

/-- A short tabu list: undoing the last move is no improvement. -/
structure ShortInv (adj : Adj k) (obj : Objective ρ) (attr : Fin k → ρ) (P : σ → Prop)
    (s : TabuState σ k) : Prop where
  strat : P s.strat
  cont : AllContiguous adj s.labels
  short : ∃ l, s.tabu.maxlen = some l ∧ l ≤ 1
  back : ∀ m ∈ s.tabu.items, s.labels m.area = m.old →
    ∃ d, obj.update m.area m.new s.labels attr = some d ∧ 0 ≤ d

theorem basicElse_short (hop : NonWorsening ops obj attr P) {s : TabuState σ k}
    (hi : ShortInv adj obj attr P s) {best : Option (Nat × Move k × ℚ)}
    (hbest : ∀ j m d, best = some (j, m, d) →
      obj.update m.area m.new s.labels attr = some d ∧ 0 < d) :
    (basicElse ops obj attr adj best s).Post False False fun p =>
      ShortInv adj obj attr P p.2 ∧ p.2.labels = s.labels ∧ p.2.visited = s.visited ∧
      p.1 = s.stop := by
  unfold basicElse
  have hasp : aspiration ops obj attr adj s = .ok s := by
    unfold aspiration
    obtain ⟨moves, h1, h2⟩ := (improvingTabus_post (obj := obj) (attr := attr) (L := s.labels)
      (ms := s.tabu.items) fun m hm ho => (hi.back m hm ho).imp fun _ h => h.1).total
    rw [h1, Res.bind_ok, if_pos]
    refine List.eq_nil_iff_forall_not_mem.2 fun m hm => ?_
    obtain ⟨h3, h4, d, h5, h6⟩ := (h2 m).1 hm
    obtain ⟨d', h7, h8⟩ := hi.back m h3 h4
    rw [h5] at h7
    cases h7
    exact absurd h6 (not_lt.2 h8)
  rw [hasp, Res.bind_ok]
  split_ifs with hst
  · exact ⟨hi, rfl, rfl, hst.symm⟩
  · have hfalse : false = s.stop := by simpa using hst
    rcases best with _ | ⟨j, m, d⟩
    · exact ⟨hi, rfl, rfl, hfalse⟩
    · obtain ⟨hd, hpos⟩ := hbest j m d rfl
      dsimp only
      unfold tryMove
      refine Res.Post.bind (Q := fun p => p.2.labels = s.labels ∧ p.2.tabu = s.tabu ∧
        p.2.visited = s.visited ∧ P p.2.strat) ?_ ?_
      · refine (hop s.strat m.area m.new s.labels s.rng d hi.strat hd).bind ?_
        rintro ⟨al, st, rng⟩ _ ⟨hP', hal⟩
        cases al with
        | true => exact absurd (hal.1 rfl) (not_le.2 hpos)
        | false => exact ⟨rfl, rfl, rfl, hP'⟩
      · rintro ⟨b, s2⟩ _ ⟨h1, h2, h3, h4⟩
        dsimp only at h1 h2 h3 h4 ⊢
        refine ⟨⟨h4, by rw [h1]; exact hi.cont, by rw [h2]; exact hi.short, ?_⟩, h1, h3, hfalse⟩
        rw [h2, h1]
        exact hi.back

theorem basicRound_short (he : obj.Exact) (ht : obj.Total) (hop : NonWorsening ops obj attr P)
    {s : TabuState σ k} (hi : ShortInv adj obj attr P s) :
    (basicRound ops obj attr adj s).Post False False fun p =>
      ShortInv adj obj attr P p.2 ∧ p.2.visited = s.visited ∧
      ReflTransGen (LowerMove adj obj attr) s.labels p.2.labels ∧
      (s.stop = true → p.1 = true ∨ LowerMove adj obj attr s.labels p.2.labels) := by
  have hadm : ∀ m ∈ possibleMoves adj s.labels s.tabu, Admissible adj s.labels m.area m.new :=
    fun m hm => (possibleMoves_admissible hm).2.1
  have hupd : ∀ m ∈ possibleMoves adj s.labels s.tabu,
      ∃ d, obj.update m.area m.new s.labels attr = some d := by
    intro m hm
    obtain ⟨_, ⟨u, hu, _⟩, hb, _⟩ := hadm m hm
    exact ht _ _ _ _ ⟨u, hu⟩ hb
  have helse : ∀ best : Option (Nat × Move k × ℚ), (∀ j m d, best = some (j, m, d) →
      obj.update m.area m.new s.labels attr = some d ∧ 0 < d) →
      (basicElse ops obj attr adj best s).Post False False fun p =>
      ShortInv adj obj attr P p.2 ∧ p.2.visited = s.visited ∧
      ReflTransGen (LowerMove adj obj attr) s.labels p.2.labels ∧
      (s.stop = true → p.1 = true ∨ LowerMove adj obj attr s.labels p.2.labels) := by
    intro best hbest
    refine (basicElse_short hop hi hbest).mono id id ?_
    rintro p ⟨h1, h2, h3, h4⟩
    exact ⟨h1, h3, by rw [h2], fun h => .inl (h4.trans h)⟩
  unfold basicRound
  refine (bestMove_post hupd 0 none).bind ?_
  intro best _ hb
  rcases best with _ | ⟨j, m, d⟩
  · exact helse _ (by simp)
  · dsimp only at hb ⊢
    obtain ⟨hb1, hb2, _⟩ := hb
    obtain ⟨_, hjm, hd⟩ := hb1.resolve_left (by simp)
    have hm : m ∈ possibleMoves adj s.labels s.tabu := List.mem_of_getElem? hjm
    split_ifs with hle
    · obtain ⟨hne, ⟨u, hu, _⟩, ⟨b, hba, hb⟩, _⟩ := hadm m hm
      have hmc := moved_contiguous hi.cont (hadm m hm)
      unfold tryMove
      refine Res.Post.bind (Q := fun p => p.1 = true ∧
        p.2.labels = moved s.labels m.area m.new ∧
        p.2.tabu = s.tabu.append ⟨m.area, m.new, s.labels m.area⟩ ∧
        p.2.visited = s.visited ∧ P p.2.strat) ?_ ?_
      · refine (hop s.strat m.area m.new s.labels s.rng d hi.strat hd).bind ?_
        rintro ⟨al, st, rng⟩ _ ⟨hP', hal⟩
        obtain rfl : al = true := hal.2 hle
        obtain ⟨b, L', h1, h2, h3, h4, h5⟩ := tabuMakeMove_spec m.area m.new hi.cont s.tabu
        dsimp only
        rw [if_pos rfl, h1, Res.bind_ok]
        exact ⟨rfl, h3 (h2.2 hmc), rfl, rfl, hP'⟩
      · rintro ⟨al, s1⟩ _ ⟨hal, h1, h2, h3, h4⟩
        dsimp only at hal h1 h2 h3 h4 ⊢
        rw [if_pos hal]
        have hlow : LowerMove adj obj attr s.labels s1.labels :=
          ⟨_, _, d, hne, hd, hle, h1, h1 ▸ hmc, by rw [h1]; exact moved_image (hadm m hm)⟩
        obtain ⟨l, hl, hl1⟩ := hi.short
        refine ⟨⟨h4, h1 ▸ hmc, ⟨l, by rw [h2, Tabu.append_maxlen, hl], hl1⟩, ?_⟩, h3, .single hlow,
          fun _ => .inr hlow⟩
        intro x hx _
        rw [h2] at hx
        obtain rfl := Tabu.mem_append_short hl hl1 hx
        have hua : u ≠ m.area := by rintro rfl; exact hne hu
        obtain ⟨d', hd'⟩ := ht m.area (s.labels m.area) (moved s.labels m.area m.new) attr
          ⟨b, by rw [moved_of_ne hba, hb]⟩ ⟨u, hua, by rw [moved_of_ne hua, moved_self, hu]⟩
        rw [h1]
        refine ⟨d', hd', ?_⟩
        have e1 := he _ _ _ _ _ hd'
        rw [moved_undo] at e1
        have e2 := he _ _ _ _ _ hd
        linarith
    · refine helse _ ?_
      intro j' m' d' h
      cases h
      exact ⟨hd, not_le.1 hle⟩

theorem basicComponent_short (he : obj.Exact) (ht : obj.Total) (hop : NonWorsening ops obj attr P)
    {init : Labels k} (hc : AllContiguous adj init) {l : Nat} (hl : l ≤ 1) (reps : Int) (fuel : Nat)
    (T : Prop) (hT : ¬ T → obj.Exact ∧ NoTies init obj attr ∧
      numRegions init ^ k * (reps.toNat + 1) < fuel) {st : σ} (hst : P st) (rng : Rng) :
    (basicComponent ops obj attr adj (some l) reps fuel init st rng).Post False T fun p =>
      P p.2.1 ∧ KeepsRegions adj init p.1 ∧
      ReflTransGen (LowerMove adj obj attr) init p.1 := by
  refine basicComponent_of (Inv := ShortInv adj obj attr P) (some l) reps ?_
    (fun _ h => ⟨h.strat, h.cont⟩) hst hc (fun _ => ⟨hst, hc, ⟨l, rfl, hl⟩, by simp⟩) fuel T hT rng
  intro s hi
  have hi0 : ShortInv adj obj attr P (noteVisit reps s) := ⟨hi.strat, hi.cont, hi.short, hi.back⟩
  exact basicRound_short he ht hop hi0

end

theorem greedy_onlyLowers {n q k : Nat} {ρ : Type} (expf : ℚ → ℚ) (idx : Fin k → Fin n)
    (attr : Fin k → ρ) (obj : Objective ρ) :
    OnlyLowers (Strat.ops (q := q) expf idx attr obj) obj attr fun st => st.Greedy := by
  intro st a r L rng h
  change (Strat.call expf idx attr obj st a r L rng).Post _ _ _
  have hnt : Strat.call expf idx attr obj st a r L rng ≠ .timeout := by
    induction st generalizing rng with
    | azp v =>
      unfold Strat.call
      split
      · simp
      · split_ifs <;> simp
    | sa => cases h
    | maxp s t v inner ih =>
      unfold Strat.call
      split_ifs
      · simp
      · have := ih rng h
        split
        · simp
        · simp
        · rename_i h'; exact absurd h' this
  generalize hx : Strat.call expf idx attr obj st a r L rng = x at hnt
  cases x with
  | ok p => exact h.call hx
  | raise e => trivial
  | timeout => exact absurd rfl hnt

end Region
