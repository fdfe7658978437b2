import Mathlib.Tactic.FinCases
import Verif.Lemmas.AzpTabu
/-
The endless run of the basic tabu search on a star, for C36 and C133.
-/
namespace Region.Props

open Region Spec

/-- A star: area 0 borders areas 1, 2 and 3. -/
def star4 : Adj 4 := fun i j => decide (i.val = 0 ∧ 0 < j.val ∨ j.val = 0 ∧ 0 < i.val)

theorem possibleMoves_filter {k : Nat} (adj : Adj k) (labels : Labels k) (t : Tabu k) :
    possibleMoves adj labels t =
      (possibleMoves adj labels ⟨[], none⟩).filter fun m => !t.items.contains m := by
  unfold possibleMoves
  rw [List.filter_flatMap]
  congr 1
  funext a
  split_ifs
  · rw [List.filter_map]
    congr 1
    rw [List.filter_filter]
    congr 1
    funext x
    simp [Bool.and_comm]
  · rfl

/-- The three labellings between which area 0 moves. -/
def starLabels (r : Int) : Labels 4 := ![r, 0, 1, 2]

/-- The moves that become tabu. -/
def starTabu : List (Move 4) := [⟨0, 1, 0⟩, ⟨0, 2, 1⟩, ⟨0, 0, 2⟩]

/-- The states of the endless run. -/
def StarState {σ : Type} (P : σ → Prop) (s : TabuState σ 4) : Prop :=
  P s.strat ∧ (s.tabu.maxlen = some 0 → s.tabu.items = []) ∧
  (∀ m ∈ s.tabu.items, m ∈ starTabu) ∧
  (s.labels = starLabels 0 ∨ s.labels = starLabels 2 ∨
    s.labels = starLabels 1 ∧ (⟨0, 1, 0⟩ ∈ s.tabu.items ∨ s.tabu.maxlen = some 0))

theorem Tabu.mem_append_self {k : Nat} (t : Tabu k) (m : Move k) (h : t.maxlen ≠ some 0) :
    m ∈ (t.append m).items := by
  unfold Tabu.append
  split
  · simp
  · rename_i L hL
    have : L ≠ 0 := by rintro rfl; exact h hL
    dsimp only
    have hle : t.items.length + 1 - L ≤ t.items.length := by omega
    rw [List.drop_append_of_le_length hle]
    simp

theorem Tabu.append_zero {k : Nat} (t : Tabu k) (m : Move k) (h : t.maxlen = some 0) :
    (t.append m).items = [] := by
  unfold Tabu.append
  rw [h]
  simp

/-- The strategy lets area 0 move between the regions of its neighbours. -/
def StarPasses {σ : Type} (ops : StratOps σ 4) (P : σ → Prop) : Prop :=
  ∀ st r r' rng, P st →
    (pairwise manhattan).update 0 r' (starLabels r) (column fun _ : Fin 4 => 0) = some 0 →
    ∃ st', P st' ∧ ops.call st 0 r' (starLabels r) rng = .ok (true, st', rng)

theorem starPasses_azp {q : Nat} : StarPasses (Strat.ops (n := 4) (q := q) (fun _ => 0) id (column fun _ => 0)
    (pairwise manhattan)) fun st => ∃ v, st = .azp v := by
  rintro _ r r' rng ⟨v, rfl⟩ hupd
  refine ⟨.azp (v + 0), ⟨_, rfl⟩, ?_⟩
  change Strat.call _ _ _ _ _ _ _ _ _ = _
  unfold Strat.call
  rw [hupd]
  simp

section
variable {σ : Type} {ops : StratOps σ 4} {P : σ → Prop} (hpass : StarPasses ops P)
include hpass

/-- One move of area 0. -/
theorem star_round (s : TabuState σ 4) (r r' : Int) (rest : List (Move 4))
    (hst : P s.strat) (hl : s.labels = starLabels r)
    (hposs : possibleMoves star4 s.labels s.tabu = ⟨0, r, r'⟩ :: rest)
    (hbest : bestMove (pairwise manhattan) (column fun _ : Fin 4 => 0) (starLabels r)
      (⟨0, r, r'⟩ :: rest) 0 none = .ok (some (0, ⟨0, r, r'⟩, 0)))
    (hupd : (pairwise manhattan).update 0 r' (starLabels r) (column fun _ : Fin 4 => 0) = some 0)
    (hmove : booleanAssertFeasible (starLabels r') star4 none = .ok true) :
    ∃ st', P st' ∧ basicRound ops (pairwise manhattan) (column fun _ => 0) star4 s =
        .ok (false, { s with labels := starLabels r', tabu := s.tabu.append ⟨0, r', r⟩,
                             strat := st' }) := by
  obtain ⟨st', hP', hcall⟩ := hpass s.strat r r' s.rng hst hupd
  refine ⟨st', hP', ?_⟩
  unfold basicRound
  rw [hposs, hl, hbest, Res.bind_ok]
  dsimp only
  rw [if_pos le_rfl]
  unfold tryMove
  rw [hl]
  dsimp only
  rw [hcall, Res.bind_ok]
  dsimp only
  rw [if_pos rfl]
  unfold tabuMakeMove
  have hm : makeMove 0 r' (starLabels r) = starLabels r' := by
    funext i
    fin_cases i <;> rfl
  rw [hm]
  dsimp only
  rw [hmove]
  rfl

theorem star_step (s : TabuState σ 4) (h : StarState P s) :
    ∃ s', basicRound ops
      (pairwise manhattan) (column fun _ => 0) star4 s = .ok (false, s') ∧ StarState P s' := by
  obtain ⟨hst, hz, hsub, hl⟩ := h
  have hnot : ∀ m : Move 4, m ∉ starTabu → s.tabu.items.contains m = false := by
    intro m hm
    cases hc : s.tabu.items.contains m with
    | false => rfl
    | true => exact absurd (hsub m (List.contains_iff_mem.1 hc)) hm
  have hsub' : ∀ m, m ∈ starTabu → ∀ x ∈ (s.tabu.append m).items, x ∈ starTabu := by
    intro m hm x hx
    rcases Tabu.mem_append hx with hx | rfl
    · exact hsub x hx
    · exact hm
  rcases hl with hl | hl | ⟨hl, hB⟩
  · -- region 0 → region 1
    have hp0 : possibleMoves star4 (starLabels 0) ⟨[], none⟩ = [⟨0, 0, 1⟩, ⟨0, 0, 2⟩] := by
      decide +kernel
    have hposs : possibleMoves star4 s.labels s.tabu = ⟨0, 0, 1⟩ ::
        ([⟨0, 0, 2⟩] : List (Move 4)).filter fun m => !s.tabu.items.contains m := by
      rw [possibleMoves_filter, hl, hp0, List.filter_cons_of_pos]
      rw [hnot _ (by decide +kernel)]; rfl
    have hbest : bestMove (pairwise manhattan) (column fun _ : Fin 4 => 0) (starLabels 0)
        (⟨0, 0, 1⟩ :: ([⟨0, 0, 2⟩] : List (Move 4)).filter fun m => !s.tabu.items.contains m) 0
        none = .ok (some (0, ⟨0, 0, 1⟩, 0)) := by
      by_cases hc : s.tabu.items.contains (⟨0, 0, 2⟩ : Move 4)
      · rw [List.filter_cons_of_neg (by simpa using hc), List.filter_nil]
        decide +kernel
      · rw [List.filter_cons_of_pos (by simpa using hc), List.filter_nil]
        decide +kernel
    obtain ⟨st', hP', hr⟩ := star_round hpass s 0 1 _ hst hl hposs hbest (by decide +kernel) (by decide +kernel)
    refine ⟨_, hr, hP', ?_, hsub' _ (by decide +kernel), .inr (.inr ⟨rfl, ?_⟩)⟩
    · intro h0
      rw [Tabu.append_maxlen] at h0
      exact Tabu.append_zero _ _ h0
    · by_cases h0 : s.tabu.maxlen = some 0
      · exact .inr (by rw [Tabu.append_maxlen]; exact h0)
      · exact .inl (Tabu.mem_append_self _ _ h0)
  · -- region 2 → region 0
    have hp0 : possibleMoves star4 (starLabels 2) ⟨[], none⟩ = [⟨0, 2, 0⟩, ⟨0, 2, 1⟩] := by
      decide +kernel
    have hposs : possibleMoves star4 s.labels s.tabu = ⟨0, 2, 0⟩ ::
        ([⟨0, 2, 1⟩] : List (Move 4)).filter fun m => !s.tabu.items.contains m := by
      rw [possibleMoves_filter, hl, hp0, List.filter_cons_of_pos]
      rw [hnot _ (by decide +kernel)]; rfl
    have hbest : bestMove (pairwise manhattan) (column fun _ : Fin 4 => 0) (starLabels 2)
        (⟨0, 2, 0⟩ :: ([⟨0, 2, 1⟩] : List (Move 4)).filter fun m => !s.tabu.items.contains m) 0
        none = .ok (some (0, ⟨0, 2, 0⟩, 0)) := by
      by_cases hc : s.tabu.items.contains (⟨0, 2, 1⟩ : Move 4)
      · rw [List.filter_cons_of_neg (by simpa using hc), List.filter_nil]
        decide +kernel
      · rw [List.filter_cons_of_pos (by simpa using hc), List.filter_nil]
        decide +kernel
    obtain ⟨st', hP', hr⟩ := star_round hpass s 2 0 _ hst hl hposs hbest (by decide +kernel) (by decide +kernel)
    refine ⟨_, hr, hP', ?_, hsub' _ (by decide +kernel), .inl rfl⟩
    intro h0
    rw [Tabu.append_maxlen] at h0
    exact Tabu.append_zero _ _ h0
  · have hp0 : possibleMoves star4 (starLabels 1) ⟨[], none⟩ = [⟨0, 1, 0⟩, ⟨0, 1, 2⟩] := by
      decide +kernel
    by_cases h0 : s.tabu.maxlen = some 0
    · -- nothing is tabu: region 1 → region 0
      have hposs : possibleMoves star4 s.labels s.tabu = [⟨0, 1, 0⟩, ⟨0, 1, 2⟩] := by
        rw [possibleMoves_filter, hl, hp0, hz h0]
        rfl
      obtain ⟨st', hP', hr⟩ := star_round hpass s 1 0 _ hst hl hposs (by decide +kernel) (by decide +kernel)
        (by decide +kernel)
      have hnil := Tabu.append_zero s.tabu ⟨0, 0, 1⟩ h0
      refine ⟨_, hr, hP', fun _ => hnil, ?_, .inl rfl⟩
      intro m hm
      rw [show (TabuState.mk _ (s.tabu.append ⟨0, 0, 1⟩) _ _ _ _ : TabuState σ 4).tabu =
        s.tabu.append ⟨0, 0, 1⟩ from rfl, hnil] at hm
      cases hm
    · -- region 1 → region 2
      have hmem : (⟨0, 1, 0⟩ : Move 4) ∈ s.tabu.items := hB.resolve_right h0
      have hposs : possibleMoves star4 s.labels s.tabu = [⟨0, 1, 2⟩] := by
        rw [possibleMoves_filter, hl, hp0, List.filter_cons_of_neg, List.filter_cons_of_pos,
          List.filter_nil]
        · rw [hnot _ (by decide +kernel)]; rfl
        · rw [List.contains_iff_mem.2 hmem]; simp
      obtain ⟨st', hP', hr⟩ := star_round hpass s 1 2 _ hst hl hposs (by decide +kernel) (by decide +kernel)
        (by decide +kernel)
      refine ⟨_, hr, hP', ?_, hsub' _ (by decide +kernel), .inr (.inl rfl)⟩
      intro h0'
      rw [Tabu.append_maxlen] at h0'
      exact absurd h0' h0

theorem star_loop (reps : Int) : ∀ (fuel : Nat) (s : TabuState σ 4), StarState P s →
    basicLoop ops
      (pairwise manhattan) (column fun _ => 0) star4 reps fuel s = .timeout := by
  intro fuel
  induction fuel with
  | zero => intro s _; rfl
  | succ fuel ih =>
    intro s hs
    obtain ⟨s', h1, h2⟩ := star_step hpass (noteVisit reps s) hs
    unfold basicLoop
    rw [h1, Res.bind_ok]
    exact ih s' h2

end

end Region.Props
