import Verif.Lemmas.AzpReact
import Verif.SpecTabu
/-
Reactive tabu search with the default strategy is steepest descent.
-/
namespace Region

open Spec Relation Props

section React
variable {σ : Type} {k : Nat} {ρ : Type} {ops : StratOps σ k} {obj : Objective ρ} {attr : Fin k → ρ}
  {adj : Adj k}

theorem moved_back (L : Labels k) (a : Fin k) (r : Int) : moved (moved L a r) a (L a) = L := by
  funext v
  simp only [moved]
  split_ifs with h
  · rw [h]
  · rfl

theorem moved_same (L : Labels k) (a : Fin k) : moved L a (L a) = L := by
  funext v
  simp only [moved]
  split_ifs with h
  · rw [h]
  · rfl

/-- If the strategy agrees, the reverse of the move is put on the list. -/
theorem tryMove_append {m : Move k} {s s' : TabuState σ k} (hc : AllContiguous adj s.labels)
    (h : tryMove ops adj m s = .ok (true, s')) :
    s'.tabu = s.tabu.append ⟨m.area, m.new, s.labels m.area⟩ := by
  unfold tryMove at h
  rw [Res.bind_eq_ok] at h
  obtain ⟨⟨al, st, rng⟩, _, h2⟩ := h
  dsimp only at h2
  cases al with
  | true =>
    obtain ⟨b, L', h1, _⟩ := tabuMakeMove_spec m.area m.new hc s.tabu
    rw [if_pos rfl, h1, Res.bind_ok] at h2
    cases h2
    rfl
  | false => simp at h2

theorem Tabu.append_one {t : Tabu k} (h : t.maxlen = some 1) (m : Move k) :
    (t.append m).items = [m] := by
  unfold Tabu.append
  rw [h]
  simp

/-- One round: a dead end, a step of steepest descent, or a local optimum. -/
theorem reactRound_outcome (hs : Symmetric adj) (he : obj.Exact) (ht : obj.Total) {P : σ → Prop}
    (hop : NonWorsening ops obj attr P) {init : Labels k} {k1 : Int} (hk1 : 1 ≤ k1) (k2 : Int)
    (avg : ℚ) {start : Option ℚ} {s : TabuState σ k} {pre : List (Labels k)}
    (hi : ReactTop adj obj attr P init start s pre)
    (himp : improving start (obj.call s.labels attr) = true)
    (htabu : ∀ m ∈ s.tabu.items, s.labels m.area = m.old →
      obj.call s.labels attr < obj.call (moved s.labels m.area m.new) attr) :
    (reactRound ops obj attr adj k1 k2 avg s = .raise .attributeError ∧
      ∀ a r, Admissible adj s.labels a r → ⟨a, s.labels a, r⟩ ∈ s.tabu.items) ∨
    ∃ s' pre', reactRound ops obj attr adj k1 k2 avg s = .ok (.ten, s') ∧
      ReactTop adj obj attr P init (some (obj.call s.labels attr)) s' pre' ∧
      s'.visited = s.visited ++ [arrayList s'.labels] ∧
      ((Steepest adj (fun L => obj.call L attr) s.labels s'.labels ∧
        ∃ a r, s'.labels = moved s.labels a r ∧ s'.tabu.items = [⟨a, r, s.labels a⟩]) ∨
       (LocalOptimum adj (fun L => obj.call L attr) s.labels ∧
        (s'.labels = s.labels ∨ Sideways adj (fun L => obj.call L attr) s.labels s'.labels))) := by
  have hadm : ∀ m ∈ possibleMoves adj s.labels s.tabu, Admissible adj s.labels m.area m.new :=
    fun m hm => ((mem_possibleMoves hs).1 hm).2.1
  have hupd : ∀ m ∈ possibleMoves adj s.labels s.tabu,
      ∃ d, obj.update m.area m.new s.labels attr = some d := by
    intro m hm
    obtain ⟨_, ⟨u, hu, _⟩, hb, _⟩ := hadm m hm
    exact ht _ _ _ _ ⟨u, hu⟩ hb
  obtain ⟨best, hbest, hb⟩ := (bestMove_post hupd 0 none).total
  rcases best with _ | ⟨j, m, d⟩
  · left
    refine ⟨?_, ?_⟩
    · unfold reactRound
      dsimp only
      rw [hbest, Res.bind_ok]
    · intro a r hm
      by_contra hcon
      have := (mem_possibleMoves hs (t := s.tabu) (m := ⟨a, s.labels a, r⟩)).2 ⟨rfl, hm, hcon⟩
      rw [hb.2] at this
      cases this
  · right
    dsimp only at hb
    obtain ⟨_, hjm, hd⟩ := hb.1.resolve_left (by simp)
    have hm : m ∈ possibleMoves adj s.labels s.tabu := List.mem_of_getElem? hjm
    obtain ⟨hold, hma, hmt⟩ := (mem_possibleMoves hs).1 hm
    obtain ⟨⟨b, s1⟩, htry, hP, hv, hst, hb1, htab, hl, hl', hcont⟩ :=
      (tryMove_post (adj := adj) hop hi.strat hd hi.cont).total
    dsimp only at hP hv hst hb1 htab hl hl' hcont
    have hcall := he _ _ _ _ _ hd
    -- the chosen move is the best of all admissible ones unless a tabu move is involved
    have hall : ∀ a r, Admissible adj s.labels a r →
        obj.call s.labels attr < obj.call (moved s.labels a r) attr ∨
        obj.call s.labels attr + d ≤ obj.call (moved s.labels a r) attr := by
      intro a r har
      by_cases hin : (⟨a, s.labels a, r⟩ : Move k) ∈ s.tabu.items
      · exact .inl (htabu _ hin rfl)
      · right
        have hmem := (mem_possibleMoves hs (t := s.tabu) (m := ⟨a, s.labels a, r⟩)).2
          ⟨rfl, har, hin⟩
        obtain ⟨d', hd'⟩ := hupd _ hmem
        have := hb.2.1 _ hmem d' hd'
        have := he _ _ _ _ _ hd'
        dsimp only at this
        rw [this]
        linarith
    obtain ⟨⟨l, s'⟩, hround, hten, pre', htop⟩ := (reactRound_default hs he ht hop hk1 k2 avg hi himp
      (R := False) (by
        intro h
        exact hmt (h m hold hma))).total
    dsimp only at hten htop
    subst hten
    have hs' : s' = { s1 with visited := s1.visited ++ [arrayList s1.labels] } := by
      have := hround
      unfold reactRound at this
      dsimp only at this
      rw [hbest, Res.bind_ok] at this
      dsimp only at this
      rw [htry, Res.bind_ok] at this
      dsimp only at this
      split_ifs at this
      · rw [Res.bind_eq_ok] at this
        obtain ⟨_, _, h⟩ := this
        cases h
      · rw [Res.bind_eq_ok] at this
        obtain ⟨_, _, h⟩ := this
        cases h
      all_goals (cases this; rfl)
    refine ⟨s', pre', hround, htop, ?_, ?_⟩
    · rw [hs']
      change s1.visited ++ _ = _
      rw [hv]
    · rw [hs']
      change (Steepest adj _ s.labels s1.labels ∧ ∃ a r, s1.labels = _ ∧ s1.tabu.items = _) ∨
        (_ ∧ (s1.labels = s.labels ∨ Sideways adj _ s.labels s1.labels))
      rcases lt_trichotomy d 0 with hlt | heq | hgt
      · left
        have hlab := hl' hlt.le (moved_contiguous hi.cont hma)
        refine ⟨⟨?_, ⟨_, _, hma, hlab⟩, ?_⟩, _, _, hlab, ?_⟩
        · change obj.call s1.labels attr < _
          rw [hlab, hcall]; linarith
        · intro a r har
          change obj.call s1.labels attr ≤ obj.call _ attr
          rw [hlab, hcall]
          rcases hall a r har with h | h <;> linarith
        · have hbt : b = true := hb1.2 hlt.le
          rw [hbt] at htry
          rw [tryMove_append hi.cont htry, Tabu.append_one hi.maxlen]
      · right
        subst heq
        have hlab := hl' le_rfl (moved_contiguous hi.cont hma)
        refine ⟨?_, .inr ⟨?_, _, _, hma, hlab⟩⟩
        · intro a r har
          change obj.call _ attr ≤ obj.call _ attr
          rcases hall a r har with h | h <;> linarith
        · change obj.call s1.labels attr = _
          rw [hlab, hcall]; simp
      · right
        refine ⟨?_, .inl (hl.resolve_right fun h => absurd h.1 (by linarith))⟩
        intro a r har
        change obj.call _ attr ≤ obj.call _ attr
        rcases hall a r har with h | h <;> linarith

/-- The state at the top of the loop after `j` steps of steepest descent. -/
structure ReactDescent (adj : Adj k) (obj : Objective ρ) (attr : Fin k → ρ) (P : σ → Prop)
    (init : Labels k) (j : Nat) (start : Option ℚ) (last : Option LastStep) (s : TabuState σ k)
    (pre : List (Labels k)) : Prop where
  top : ReactTop adj obj attr P init start s pre
  hist : (j = 0 ∧ start = none ∧ s.labels = init ∧ s.visited = [] ∧ s.tabu.items = []) ∨
    ∃ i before a r, j = i + 1 ∧ last = some .ten ∧ start = some (obj.call before attr) ∧
      Descent adj (fun L => obj.call L attr) i init before ∧
      Steepest adj (fun L => obj.call L attr) before s.labels ∧
      s.labels = moved before a r ∧ s.tabu.items = [⟨a, r, before a⟩] ∧
      ((i = 0 ∧ s.visited = [arrayList s.labels]) ∨
        (0 < i ∧ ∃ rest, s.visited = rest ++ [arrayList before, arrayList s.labels]))

/-- `out` is at least as good as everything stored, the labelling stored last apart if the limit ended
the descent. -/
def BestStored (adj : Adj k) (f : Labels k → ℚ) (limit : Nat) (init out : Labels k)
    (visited : List (List Int)) : Prop :=
  ∃ (pre : List (Labels k)) (last : Labels k), visited = pre.map arrayList ++ [arrayList last] ∧ (∀ L ∈ pre, f out ≤ f L) ∧
    (f out ≤ f last ∨ (2 ≤ limit ∧ Descent adj f (limit - 1) init out ∧ Steepest adj f out last))

theorem reactLoop_outcome (hs : Symmetric adj) (he : obj.Exact) (ht : obj.Total) {P : σ → Prop}
    (hop : NonWorsening ops obj attr P) {init : Labels k} {k1 : Int} (hk1 : 1 ≤ k1) (k2 : Int)
    (avg : ℚ) {limit : Nat} (hlim : 1 ≤ limit) :
    ∀ (it j : Nat) (start : Option ℚ) (last : Option LastStep) (s : TabuState σ k)
      (pre : List (Labels k)), ReactDescent adj obj attr P init j start last s pre → j + it = limit →
      (reactLoop ops obj attr adj k1 k2 avg it start last s = .raise .attributeError ∧
        DeadEnd adj (fun L => obj.call L attr) limit init) ∨
      ∃ s' out, reactLoop ops obj attr adj k1 k2 avg it start last s = .ok (some .ten, s') ∧
        reactResult s'.visited (some .ten) = .ok (arrayList out) ∧
        DescentResult adj (fun L => obj.call L attr) limit init out ∧
        BestStored adj (fun L => obj.call L attr) limit init out s'.visited := by
  intro it
  induction it with
  | zero =>
    intro j start last s pre hi hj
    right
    rcases hi.hist with ⟨h, _⟩ | ⟨i, before, a, r, rfl, rfl, h2, h3, h4, h5, h6, h7⟩
    · omega
    · rcases h7 with ⟨rfl, h7⟩ | ⟨hi0, rest, h7⟩
      · refine ⟨s, s.labels, rfl, by rw [h7]; rfl, .inr (.inr (.inl ⟨by omega, ?_⟩)),
          [], s.labels, by rw [h7]; rfl, by simp, .inl le_rfl⟩
        cases h3
        exact h4
      · have h3' : Descent adj (fun L => obj.call L attr) (limit - 1) init before := by
          rw [show limit - 1 = i by omega]
          exact h3
        obtain ⟨_, hvis⟩ := hi.top.visited.resolve_left fun h => by rw [h2] at h; cases h.1
        refine ⟨s, before, rfl, by rw [h7]; simp [reactResult], .inr (.inr (.inr ⟨s.labels,
          by omega, h3', h4⟩)), pre, s.labels, hvis, ?_, .inr ⟨by omega, h3', h4⟩⟩
        intro L hL
        obtain ⟨b, hb1, hb2⟩ := hi.top.pre_ge L hL
        rw [h2] at hb1
        cases hb1
        exact hb2
  | succ it ih =>
    intro j start last s pre hi hj
    have hcur : Descent adj (fun L => obj.call L attr) j init s.labels := by
      rcases hi.hist with ⟨rfl, _, h, _⟩ | ⟨i, before, a, r, rfl, _, _, h3, h4, _⟩
      · rw [h]; exact .start _
      · exact .step h3 h4
    have himp : improving start (obj.call s.labels attr) = true := by
      rcases hi.hist with ⟨_, h, _⟩ | ⟨i, before, a, r, _, _, h2, _, h4, _⟩
      · rw [h]; rfl
      · rw [h2]
        simp only [improving, decide_eq_true_eq]
        exact h4.1
    have htabu : ∀ m ∈ s.tabu.items, s.labels m.area = m.old →
        obj.call s.labels attr < obj.call (moved s.labels m.area m.new) attr := by
      intro m hm _
      rcases hi.hist with ⟨_, _, _, _, h⟩ | ⟨i, before, a, r, _, _, _, _, h4, h5, h6, _⟩
      · rw [h] at hm; cases hm
      · rw [h6, List.mem_singleton] at hm
        subst hm
        dsimp only
        have : moved s.labels a (before a) = before := by rw [h5]; exact moved_back _ _ _
        rw [this]
        exact h4.1
    unfold reactLoop
    dsimp only
    rw [if_pos himp]
    rcases reactRound_outcome hs he ht hop hk1 k2 avg hi.top himp htabu with
      ⟨h1, h2⟩ | ⟨s', pre', h1, h2, h3, h4⟩
    · left
      refine ⟨by rw [h1]; rfl, ?_⟩
      rcases hi.hist with ⟨_, _, h, _, h'⟩ | ⟨i, before, a, r, hji, _, _, h3, h4, h5, h6, _⟩
      · left
        refine ⟨hlim, ?_⟩
        intro a r har
        rw [← h] at har
        have := h2 a r har
        rw [h'] at this
        cases this
      · right
        refine ⟨i, before, s.labels, by omega, h3, h4, ?_⟩
        intro b r' hb
        have := h2 b r' hb
        rw [h6, List.mem_singleton] at this
        cases this
        rw [h5]
        exact moved_back _ _ _
    · rw [h1, Res.bind_ok]
      dsimp only
      rcases h4 with ⟨h4, a, r, h5, h6⟩ | ⟨h4, h5⟩
      · refine ih (j + 1) _ _ s' pre' ⟨h2, .inr ⟨j, s.labels, a, r, rfl, rfl, rfl, hcur, h4, h5, h6,
          ?_⟩⟩ (by omega)
        rcases hi.hist with ⟨rfl, _, _, h, _⟩ | ⟨i, before, _, _, rfl, _, _, _, _, _, _, h7⟩
        · left
          exact ⟨rfl, by rw [h3, h]; rfl⟩
        · right
          refine ⟨by omega, ?_⟩
          rcases h7 with ⟨_, h7⟩ | ⟨_, rest, h7⟩
          · exact ⟨[], by rw [h3, h7]; rfl⟩
          · exact ⟨rest ++ [arrayList before], by rw [h3, h7]; simp⟩
      · right
        have hval : obj.call s'.labels attr = obj.call s.labels attr := by
          rcases h5 with h | h
          · rw [h]
          · exact h.1
        have hloop : reactLoop ops obj attr adj k1 k2 avg it (some (obj.call s.labels attr))
            (some .ten) s' = .ok (some .ten, s') := by
          cases it with
          | zero => rfl
          | succ it =>
            unfold reactLoop
            dsimp only
            rw [if_neg]
            simp [improving, hval]
        rcases hi.hist with ⟨rfl, _, hl, h, _⟩ | ⟨i, before, _, _, rfl, _, _, _, _, _, _, h7⟩
        · refine ⟨s', s'.labels, hloop, by rw [h3, h]; rfl, ?_, [], s'.labels, by rw [h3, h]; rfl,
            by simp, .inl le_rfl⟩
          rw [hl] at h4 h5
          rcases h5 with h5 | h5
          · rw [h5]
            exact .inl ⟨0, by omega, .start _, h4⟩
          · exact .inr (.inl ⟨h4, h5⟩)
        · obtain ⟨_, hvis⟩ := h2.visited.resolve_left fun h => by cases h.1
          refine ⟨s', s.labels, hloop, ?_, .inl ⟨i + 1, by omega, hcur, h4⟩, pre', s'.labels, hvis, ?_,
            .inl hval.ge⟩
          swap
          · intro L hL
            obtain ⟨b, hb1, hb2⟩ := h2.pre_ge L hL
            cases hb1
            exact hb2
          rcases h7 with ⟨_, h7⟩ | ⟨_, rest, h7⟩
          · rw [h3, h7]; rfl
          · rw [h3, h7]; simp [reactResult]

theorem reactComponentList_outcome (hs : Symmetric adj) (he : obj.Exact) (ht : obj.Total)
    {P : σ → Prop} (hop : NonWorsening ops obj attr P) {init : Labels k}
    (hc : AllContiguous adj init) {k1 : Int} (hk1 : 1 ≤ k1) (k2 : Int) {maxIt : Nat}
    (hm : 1 ≤ maxIt) (hn : numRegions init ≠ 1) (self : ReactObj σ) (hv : self.visited = [])
    (hP : P self.strat) :
    (reactComponentList ops obj attr adj maxIt k1 k2 init self = .raise .attributeError ∧
      DeadEnd adj (fun L => obj.call L attr) maxIt init) ∨
    ∃ self' out, reactComponentList ops obj attr adj maxIt k1 k2 init self =
        .ok (arrayList out, self') ∧
      DescentResult adj (fun L => obj.call L attr) maxIt init out ∧
      BestStored adj (fun L => obj.call L attr) maxIt init out self'.visited := by
  unfold reactComponentList
  rw [length_unique_labels, if_neg hn]
  rcases reactLoop_outcome hs he ht hop hk1 k2 self.avg hm maxIt 0 none none
    { labels := init, tabu := ⟨[], some 1⟩, visited := self.visited, stop := false,
      strat := self.strat, rng := self.rng } []
    ⟨⟨hc, fun _ => Iff.rfl, hP, by simp, rfl, le_rfl, by simp, by simp, by simp, by simp,
      .inl ⟨rfl, rfl, hv⟩⟩, .inl ⟨rfl, rfl, rfl, hv, rfl⟩⟩ (by omega) with
    ⟨h1, h2⟩ | ⟨s', out, h1, h2, h3⟩
  · exact .inl ⟨by rw [h1]; rfl, h2⟩
  · refine .inr ⟨{ self with visited := s'.visited, strat := s'.strat, rng := s'.rng }, out, ?_, h3⟩
    rw [h1, Res.bind_ok]
    dsimp only
    rw [h2, Res.bind_ok]

end React

end Region
