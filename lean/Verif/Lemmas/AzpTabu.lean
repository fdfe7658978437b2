import Verif.Model.AzpTabu
import Verif.Lemmas.AzpOpt
import Verif.Lemmas.AzpSa
import Verif.Props.Util
/-
Lemmas about the tabu versions of the AZP.
-/
namespace Region

open Spec Relation

/-! ### The tabu list and the moves -/

theorem Tabu.mem_append {k : Nat} {t : Tabu k} {m x : Move k} (h : x ∈ (t.append m).items) :
    x ∈ t.items ∨ x = m := by
  unfold Tabu.append at h
  split at h
  · simpa using h
  · have := List.mem_of_mem_drop h
    simpa using this

theorem Tabu.append_maxlen {k : Nat} (t : Tabu k) (m : Move k) :
    (t.append m).maxlen = t.maxlen := by
  unfold Tabu.append
  split <;> rfl

theorem Tabu.append_length {k : Nat} (t : Tabu k) (m : Move k) {L : Nat} (h : t.maxlen = some L)
    (ht : t.items.length ≤ L) : (t.append m).items.length ≤ L := by
  unfold Tabu.append
  rw [h]
  simp only [List.length_drop, List.length_append, List.length_singleton]
  omega

theorem tabuMakeMove_spec {k : Nat} {adj : Adj k} (a : Fin k) (r : Int) {L : Labels k}
    (hc : AllContiguous adj L) (t : Tabu k) :
    ∃ b L', tabuMakeMove adj a r L t = .ok (b, L', t.append ⟨a, r, L a⟩) ∧
      (b = true ↔ AllContiguous adj (moved L a r)) ∧ (b = true → L' = moved L a r) ∧
      (b = false → L' = L) ∧ AllContiguous adj L' := by
  obtain ⟨h1, h2, _⟩ := Props.c04_boolean_assert_feasible (moved L a r) adj none
  obtain ⟨b, hb⟩ := h2.2 (by simp)
  have hb' := h1 b hb
  unfold tabuMakeMove
  dsimp only
  rw [makeMove_eq_moved, hb, Res.bind_ok]
  cases b with
  | true =>
    exact ⟨true, moved L a r, rfl, hb', fun _ => rfl, (fun h => by cases h), hb'.1 rfl⟩
  | false =>
    have : makeMove a (L a) (moved L a r) = L := by
      funext v
      simp only [makeMove, moved]
      split_ifs with h
      · rw [h]
      · rfl
    refine ⟨false, L, by rw [this]; rfl, hb', (fun h => by cases h), fun _ => rfl, hc⟩

theorem possibleMoves_admissible {k : Nat} {adj : Adj k} {L : Labels k} {t : Tabu k}
    {m : Move k} (h : m ∈ possibleMoves adj L t) :
      m.old = L m.area ∧ Admissible adj L m.area m.new ∧ m ∉ t.items := by
  unfold possibleMoves at h
  unfold Admissible
  simp only [List.mem_flatMap, List.mem_finRange, true_and] at h
  obtain ⟨a, h⟩ := h
  split_ifs at h with hc
  · simp only [List.mem_map, List.mem_filter, mem_neighbors, Bool.and_eq_true,
      decide_eq_true_eq, Bool.not_eq_true'] at h
    obtain ⟨u, ⟨hau, hne, hnt⟩, rfl⟩ := h
    simp only [Bool.and_eq_true, decide_eq_true_eq, gt_iff_lt, one_lt_count_iff,
      isConnected_subAdjWo] at hc
    have hnt' : (⟨a, L a, L u⟩ : Move k) ∉ t.items := by
      intro hmem
      rw [List.contains_iff_mem.2 hmem] at hnt
      cases hnt
    exact ⟨rfl, ⟨fun h => hne h.symm, ⟨u, rfl, .inr hau⟩, hc.2, hc.1⟩, hnt'⟩
  · cases h

theorem mem_possibleMoves {k : Nat} {adj : Adj k} (hs : Symmetric adj) {L : Labels k} {t : Tabu k}
    {m : Move k} : m ∈ possibleMoves adj L t ↔
      m.old = L m.area ∧ Admissible adj L m.area m.new ∧ m ∉ t.items := by
  refine ⟨possibleMoves_admissible, ?_⟩
  unfold possibleMoves Admissible
  simp only [List.mem_flatMap, List.mem_finRange, true_and]
  · rintro ⟨ho, ⟨hne, ⟨u, hu, hb⟩, halone, hcon⟩, hnt⟩
    refine ⟨m.area, ?_⟩
    rw [if_pos (by
      simp only [Bool.and_eq_true, decide_eq_true_eq, gt_iff_lt, one_lt_count_iff,
        isConnected_subAdjWo]
      exact ⟨hcon, halone⟩)]
    simp only [List.mem_map, List.mem_filter, mem_neighbors, Bool.and_eq_true, decide_eq_true_eq,
      Bool.not_eq_true']
    have hadj : adj m.area u = true := by
      rcases hb with hb | hb
      · rw [hs]; exact hb
      · exact hb
    have hm : (⟨m.area, L m.area, L u⟩ : Move k) = m := by
      rw [hu, ← ho]
    refine ⟨u, ⟨hadj, fun h => hne (by rw [← hu, h]), ?_⟩, hm⟩
    rw [hm]
    cases hcc : t.items.contains m with
    | false => rfl
    | true => exact absurd (List.contains_iff_mem.1 hcc) hnt

section Best
variable {k : Nat} {ρ : Type} {obj : Objective ρ} {attr : Fin k → ρ} {L : Labels k}

theorem bestMove_post {ms : List (Move k)}
    (hms : ∀ m ∈ ms, ∃ d, obj.update m.area m.new L attr = some d) :
    ∀ (i : Nat) (best : Option (Nat × Move k × ℚ)),
      (bestMove obj attr L ms i best).Post False False fun out =>
        match out with
        | none => best = none ∧ ms = []
        | some (j, m, d) =>
          (best = some (j, m, d) ∨
            (i ≤ j ∧ ms[j - i]? = some m ∧ obj.update m.area m.new L attr = some d)) ∧
          (∀ m' ∈ ms, ∀ d', obj.update m'.area m'.new L attr = some d' → d ≤ d') ∧
          (∀ x, best = some x → d ≤ x.2.2) := by
  induction ms with
  | nil =>
    intro i best
    unfold bestMove
    cases best with
    | none => exact ⟨rfl, rfl⟩
    | some x =>
      refine ⟨.inl rfl, by simp, ?_⟩
      rintro x' h
      cases h
      exact le_rfl
  | cons m ms ih =>
    intro i best
    obtain ⟨d, hd⟩ := hms m (by simp)
    have ih := fun b => ih (fun m' hm' => hms m' (List.mem_cons_of_mem _ hm')) (i + 1) b
    unfold bestMove updateOf
    rw [hd]
    simp only [Res.bind_ok]
    have hidx : ∀ j (m' : Move k), i + 1 ≤ j ∧ ms[j - (i + 1)]? = some m' →
        i ≤ j ∧ (m :: ms)[j - i]? = some m' := by
      rintro j m' ⟨h1, h2⟩
      refine ⟨by omega, ?_⟩
      rw [show j - i = (j - (i + 1)) + 1 by omega, List.getElem?_cons_succ]
      exact h2
    cases best with
    | none =>
      dsimp only
      refine (ih _).mono id id ?_
      intro out h
      cases out with
      | none => exact absurd h.1 (by simp)
      | some x =>
        obtain ⟨j, m1, d1⟩ := x
        obtain ⟨h1, h2, h3⟩ := h
        replace h3 := h3 _ rfl
        refine ⟨.inr ?_, ?_, by simp⟩
        · rcases h1 with h1 | ⟨ha, hb, hc⟩
          · cases h1
            exact ⟨le_rfl, by simp, hd⟩
          · exact ⟨(hidx j m1 ⟨ha, hb⟩).1, (hidx j m1 ⟨ha, hb⟩).2, hc⟩
        · intro m' hm' d' hd'
          rcases List.mem_cons.1 hm' with rfl | hm'
          · rw [hd] at hd'; cases hd'; exact h3
          · exact h2 m' hm' d' hd'
    | some x0 =>
      obtain ⟨j0, m0, d0⟩ := x0
      dsimp only
      split_ifs with hlt
      · refine (ih _).mono id id ?_
        intro out h
        cases out with
        | none => exact absurd h.1 (by simp)
        | some x =>
          obtain ⟨j, m1, d1⟩ := x
          obtain ⟨h1, h2, h3⟩ := h
          replace h3 := h3 _ rfl
          dsimp only at h3
          refine ⟨.inr ?_, ?_, ?_⟩
          · rcases h1 with h1 | ⟨ha, hb, hc⟩
            · cases h1
              exact ⟨le_rfl, by simp, hd⟩
            · exact ⟨(hidx j m1 ⟨ha, hb⟩).1, (hidx j m1 ⟨ha, hb⟩).2, hc⟩
          · intro m' hm' d' hd'
            rcases List.mem_cons.1 hm' with rfl | hm'
            · rw [hd] at hd'; cases hd'; exact h3
            · exact h2 m' hm' d' hd'
          · rintro x h
            cases h
            exact h3.trans hlt.le
      · refine (ih _).mono id id ?_
        intro out h
        cases out with
        | none => exact absurd h.1 (by simp)
        | some x =>
          obtain ⟨j, m1, d1⟩ := x
          obtain ⟨h1, h2, h3⟩ := h
          have h3' := h3 _ rfl
          dsimp only at h3'
          refine ⟨?_, ?_, h3⟩
          · rcases h1 with h1 | ⟨ha, hb, hc⟩
            · exact .inl h1
            · exact .inr ⟨(hidx j m1 ⟨ha, hb⟩).1, (hidx j m1 ⟨ha, hb⟩).2, hc⟩
          · intro m' hm' d' hd'
            rcases List.mem_cons.1 hm' with rfl | hm'
            · rw [hd] at hd'; cases hd'; exact h3'.trans (not_lt.1 hlt)
            · exact h2 m' hm' d' hd'

/-- Without the assumption that the differences exist. -/
theorem bestMove_total_of_ok {ms : List (Move k)} :
    ∀ {i : Nat} {best out : Option (Nat × Move k × ℚ)}, bestMove obj attr L ms i best = .ok out →
      ∀ m ∈ ms, ∃ d, obj.update m.area m.new L attr = some d := by
  induction ms with
  | nil => simp
  | cons m ms ih =>
    intro i best out h
    unfold bestMove at h
    rw [Res.bind_eq_ok] at h
    obtain ⟨d, h1, h2⟩ := h
    have hd : obj.update m.area m.new L attr = some d := by
      unfold updateOf at h1
      split at h1
      · cases h1
      · rename_i heq; cases h1; exact heq
    intro m' hm'
    rcases List.mem_cons.1 hm' with rfl | hm'
    · exact ⟨d, hd⟩
    · exact ih h2 m' hm'

theorem improvingTabus_post {ms : List (Move k)}
    (hms : ∀ m ∈ ms, L m.area = m.old → ∃ d, obj.update m.area m.new L attr = some d) :
    (improvingTabus obj attr L ms).Post False False fun out =>
      ∀ m, m ∈ out ↔ m ∈ ms ∧ L m.area = m.old ∧
        ∃ d, obj.update m.area m.new L attr = some d ∧ d < 0 := by
  induction ms with
  | nil => intro m; simp
  | cons m ms ih =>
    have ih := ih fun m' hm' => hms m' (List.mem_cons_of_mem _ hm')
    unfold improvingTabus
    split_ifs with ho
    · obtain ⟨d, hd⟩ := hms m (by simp) ho
      unfold updateOf
      rw [hd]
      simp only [Res.bind_ok]
      refine ih.bind fun rest _ hr => ?_
      intro m'
      by_cases hlt : d < 0
      · rw [if_pos hlt, List.mem_cons, hr, List.mem_cons]
        constructor
        · rintro (rfl | ⟨h1, h2⟩)
          · exact ⟨.inl rfl, ho, d, hd, hlt⟩
          · exact ⟨.inr h1, h2⟩
        · rintro ⟨rfl | h1, h2⟩
          · exact .inl rfl
          · exact .inr ⟨h1, h2⟩
      · rw [if_neg hlt, hr, List.mem_cons]
        constructor
        · rintro ⟨h1, h2⟩; exact ⟨.inr h1, h2⟩
        · rintro ⟨rfl | h1, h2, d', hd', hlt'⟩
          · rw [hd] at hd'; cases hd'; exact absurd hlt' hlt
          · exact ⟨h1, h2, d', hd', hlt'⟩
    · refine ih.mono id id ?_
      intro out hr m'
      rw [hr, List.mem_cons]
      constructor
      · rintro ⟨h1, h2⟩; exact ⟨.inr h1, h2⟩
      · rintro ⟨rfl | h1, h2⟩
        · exact absurd h2.1 ho
        · exact ⟨h1, h2⟩

end Best

/-! ### Single moves with a pairwise objective -/

section Pairwise
variable {k : Nat} {ρ : Type} {metric : ρ → ρ → ℚ} {attr : Fin k → ρ}

theorem pairwise_update_iff {a : Fin k} {r : Int} {L : Labels k} {d : ℚ} :
    (pairwise metric).update a r L attr = some d ↔ (∃ i, L i = r) ∧
      d = (∑ i ∈ Finset.univ.filter (fun i => L i = r), metric (attr i) (attr a)) -
        ∑ i ∈ Finset.univ.filter (fun i => L i = L a), metric (attr i) (attr a) := by
  change pairwiseUpdate metric a r L attr = some d ↔ _
  rw [pairwiseUpdate_eq]
  split_ifs with h
  · simp only [h, true_and, Option.some.injEq]; exact eq_comm
  · simp [h]

theorem sum_alone (h0 : ∀ x, metric x x = 0) {a : Fin k} {L : Labels k}
    (h : ∀ b, b ≠ a → L b ≠ L a) :
    ∑ i ∈ Finset.univ.filter (fun i => L i = L a), metric (attr i) (attr a) = 0 := by
  apply Finset.sum_eq_zero
  intro i hi
  by_cases hia : i = a
  · rw [hia, h0]
  · exact absurd (by simpa using hi) (h i hia)

theorem pairwise_neg (hp : ∀ x y, 0 ≤ metric x y) (h0 : ∀ x, metric x x = 0) {a : Fin k} {r : Int}
    {L : Labels k} {d : ℚ} (h : (pairwise metric).update a r L attr = some d) (hd : d < 0) :
    L a ≠ r ∧ ∃ b, b ≠ a ∧ L b = L a := by
  obtain ⟨_, rfl⟩ := pairwise_update_iff.1 h
  refine ⟨?_, ?_⟩
  · rintro rfl
    simp at hd
  · by_contra hcon
    push Not at hcon
    rw [sum_alone h0 hcon, sub_zero] at hd
    exact absurd hd (not_lt.2 (Finset.sum_nonneg fun i _ => hp _ _))

/-- A move that was worsening cannot become neutral by an aspiration move that leaves its area alone in
its region. -/
theorem pairwise_stale (hp : ∀ x y, 0 ≤ metric x y) (h0 : ∀ x, metric x x = 0) {a : Fin k} {S : Int}
    {L0 L1 : Labels k} {d0 d1 : ℚ} (hu0 : (pairwise metric).update a S L0 attr = some d0)
    (hd0 : 0 < d0) (hu1 : (pairwise metric).update a S L1 attr = some d1) (hd1 : d1 ≤ 0)
    (hb : ∃ b, b ≠ a ∧ L0 b = L0 a)
    (h : L1 = L0 ∨ ∃ x B dx, L1 = moved L0 x B ∧
      (pairwise metric).update x B L0 attr = some dx ∧ dx < 0) :
    L1 a = S ∨ ∃ b, b ≠ a ∧ L1 b = L1 a := by
  rcases h with rfl | ⟨x, B, dx, rfl, hux, hdx⟩
  · exact .inr hb
  · obtain ⟨hxB, hx⟩ := pairwise_neg hp h0 hux hdx
    obtain ⟨⟨w, hw⟩, _⟩ := pairwise_update_iff.1 hux
    right
    by_contra hcon
    push Not at hcon
    by_cases hxa : x = a
    · subst hxa
      have hwx : w ≠ x := by rintro rfl; exact hxB hw
      exact hcon w hwx (by simp [moved, hwx, hw])
    · have hLa : moved L0 x B a = L0 a := by simp [moved, Ne.symm hxa]
      obtain ⟨b, hba, hbL⟩ := hb
      have hbx : b = x := by
        by_contra hbx
        exact hcon b hba (by rw [hLa]; simp [moved, hbx, hbL])
      subst hbx
      obtain ⟨_, rfl⟩ := pairwise_update_iff.1 hu0
      obtain ⟨_, rfl⟩ := pairwise_update_iff.1 hu1
      rw [sum_alone h0 hcon, sub_zero] at hd1
      have h1 : (0:ℚ) ≤ ∑ i ∈ Finset.univ.filter (fun i => L0 i = L0 a), metric (attr i) (attr a) :=
        Finset.sum_nonneg fun i _ => hp _ _
      have hneS : L0 a ≠ S := by
        rintro rfl
        simp at hd0
      have h2 : ∑ i ∈ Finset.univ.filter (fun i => L0 i = S), metric (attr i) (attr a) ≤
          ∑ i ∈ Finset.univ.filter (fun i => moved L0 b B i = S), metric (attr i) (attr a) := by
        apply Finset.sum_le_sum_of_subset_of_nonneg
        · intro i hi
          simp only [Finset.mem_filter, Finset.mem_univ, true_and] at hi ⊢
          have : i ≠ b := by rintro rfl; exact hneS (by rw [← hbL, hi])
          simp [moved, this, hi]
        · intro i _ _; exact hp _ _
      linarith

end Pairwise

theorem moved_same_image {V L : Type} [DecidableEq V] {labels : V → L} {a : V} {r : L}
    (hr : ∃ u, labels u = r) (h : labels a = r ∨ ∃ b, b ≠ a ∧ labels b = labels a) (x : L) :
    (∃ i, moved labels a r i = x) ↔ ∃ i, labels i = x := by
  have key : labels a = r → moved labels a r = labels := by
    intro e
    funext v
    simp only [moved]
    split_ifs with hv
    · rw [hv, e]
    · rfl
  rcases h with h | ⟨b, hba, hb⟩
  · rw [key h]
  · by_cases har : labels a = r
    · rw [key har]
    · constructor
      · rintro ⟨i, rfl⟩
        by_cases hi : i = a
        · obtain ⟨u, hu⟩ := hr
          exact ⟨u, by simp [moved, hi, hu]⟩
        · exact ⟨i, by simp [moved, hi]⟩
      · rintro ⟨i, rfl⟩
        by_cases hi : i = a
        · exact ⟨b, by simp [moved, hba, hb, hi]⟩
        · exact ⟨i, by simp [moved, hi]⟩

/-! ### The basic version -/

section Basic
variable {σ : Type} {k : Nat} {ρ : Type} {ops : StratOps σ k} {obj : Objective ρ} {attr : Fin k → ρ}
  {adj : Adj k} {P : σ → Prop}

/-- The strategy allows a move exactly if it does not worsen the objective. -/
def NonWorsening (ops : StratOps σ k) (obj : Objective ρ) (attr : Fin k → ρ) (P : σ → Prop) : Prop :=
  ∀ st a r L rng d, P st → obj.update a r L attr = some d →
    (ops.call st a r L rng).Post False False fun p => P p.2.1 ∧ (p.1 = true ↔ d ≤ 0)

/-- A move that keeps the regions contiguous and does not worsen the objective. -/
def LowerMove (adj : Adj k) (obj : Objective ρ) (attr : Fin k → ρ) (L L' : Labels k) : Prop :=
  ∃ a r d, L a ≠ r ∧ obj.update a r L attr = some d ∧ d ≤ 0 ∧ L' = moved L a r ∧
    AllContiguous adj L' ∧ ∀ x, (∃ i, L' i = x) ↔ ∃ i, L i = x

theorem tryMove_post (hop : NonWorsening ops obj attr P) {s : TabuState σ k} {m : Move k} {d : ℚ}
    (hP : P s.strat) (hd : obj.update m.area m.new s.labels attr = some d)
    (hc : AllContiguous adj s.labels) :
    (tryMove ops adj m s).Post False False fun p =>
      P p.2.strat ∧ p.2.visited = s.visited ∧ p.2.stop = s.stop ∧ (p.1 = true ↔ d ≤ 0) ∧
      (p.2.tabu = s.tabu ∨ p.2.tabu = s.tabu.append ⟨m.area, m.new, s.labels m.area⟩) ∧
      (p.2.labels = s.labels ∨ (d ≤ 0 ∧ p.2.labels = moved s.labels m.area m.new)) ∧
      (d ≤ 0 → AllContiguous adj (moved s.labels m.area m.new) →
        p.2.labels = moved s.labels m.area m.new) ∧
      AllContiguous adj p.2.labels := by
  unfold tryMove
  refine (hop s.strat m.area m.new s.labels s.rng d hP hd).bind ?_
  rintro ⟨al, st, rng⟩ _ ⟨hP', hal⟩
  dsimp only at hP' hal ⊢
  cases al with
  | true =>
    obtain ⟨b, L', h1, h2, h3, h4, h5⟩ := tabuMakeMove_spec m.area m.new hc s.tabu
    rw [if_pos rfl, h1, Res.bind_ok]
    refine ⟨hP', rfl, rfl, hal, .inr rfl, ?_, ?_, h5⟩
    · cases b with
      | true => exact .inr ⟨hal.1 rfl, h3 rfl⟩
      | false => exact .inl (h4 rfl)
    · intro _ hcc
      exact h3 (h2.2 hcc)
  | false =>
    rw [if_neg (by simp)]
    refine ⟨hP', rfl, rfl, hal, .inl rfl, .inl rfl, ?_, hc⟩
    intro hle
    have := hal.2 hle
    cases this

variable {metric : ρ → ρ → ℚ}

/-- The invariant of the loop: contiguous regions, the region labels of the start, and the moves in the
tabu list lead to such regions. -/
structure TabuInv (adj : Adj k) (P : σ → Prop) (init : Labels k) (s : TabuState σ k) : Prop where
  cont : AllContiguous adj s.labels
  image : ∀ x, (∃ i, s.labels i = x) ↔ ∃ i, init i = x
  tabu : ∀ m ∈ s.tabu.items, ∃ i, init i = m.new
  strat : P s.strat

theorem tabu_inv_append {init : Labels k} {L : Labels k} {t t' : Tabu k} {a : Fin k} {r : Int}
    (himg : ∀ x, (∃ i, L i = x) ↔ ∃ i, init i = x) (ht : ∀ m ∈ t.items, ∃ i, init i = m.new)
    (h : t' = t ∨ t' = t.append ⟨a, r, L a⟩) : ∀ m ∈ t'.items, ∃ i, init i = m.new := by
  rcases h with rfl | rfl
  · exact ht
  · intro m hm
    rcases Tabu.mem_append hm with hm | rfl
    · exact ht m hm
    · exact (himg _).1 ⟨a, rfl⟩

theorem aspiration_post (hp : ∀ x y, 0 ≤ metric x y) (h0 : ∀ x, metric x x = 0)
    (hop : NonWorsening ops (pairwise metric) attr P) {init : Labels k} {s : TabuState σ k}
    (hi : TabuInv adj P init s) :
    (aspiration ops (pairwise metric) attr adj s).Post False False fun s' =>
      TabuInv adj P init s' ∧ s'.visited = s.visited ∧ s'.stop = s.stop ∧
      (s'.labels = s.labels ∨ (∃ x B dx, s'.labels = moved s.labels x B ∧
        (pairwise metric).update x B s.labels attr = some dx ∧ dx < 0)) ∧
      ReflTransGen (LowerMove adj (pairwise metric) attr) s.labels s'.labels := by
  unfold aspiration
  refine (improvingTabus_post (obj := pairwise metric) (attr := attr) (L := s.labels)
    (ms := s.tabu.items) ?_).bind ?_
  · intro m hm _
    obtain ⟨u, hu⟩ := (hi.image m.new).2 (hi.tabu m hm)
    exact ⟨_, pairwise_update_iff.2 ⟨⟨u, hu⟩, rfl⟩⟩
  · intro moves _ hmoves
    split_ifs with hnil
    · exact ⟨hi, rfl, rfl, .inl rfl, .refl⟩
    · obtain ⟨m, hm, hr⟩ := randomElementFrom_ne_nil hnil s.rng
      obtain ⟨_, _, d, hd, hneg⟩ := (hmoves m).1 hm
      rw [hr, Res.bind_ok]
      refine (tryMove_post (adj := adj) (s := { s with rng := s.rng.next }) hop hi.strat hd
        hi.cont).bind ?_
      rintro ⟨b, s'⟩ _ ⟨hP, hv, hst, _, htabu, hl, _, hcont⟩
      dsimp only at hP hv hst htabu hl hcont ⊢
      obtain ⟨hne, hb⟩ := pairwise_neg hp h0 hd hneg
      obtain ⟨hr', _⟩ := pairwise_update_iff.1 hd
      have himg : ∀ x, (∃ i, s'.labels i = x) ↔ ∃ i, s.labels i = x := by
        rcases hl with hl | ⟨_, hl⟩
        · rw [hl]; exact fun _ => Iff.rfl
        · rw [hl]; exact moved_same_image hr' (.inr hb)
      refine ⟨⟨hcont, fun x => (himg x).trans (hi.image x),
        tabu_inv_append hi.image hi.tabu htabu, hP⟩, hv, hst, ?_, ?_⟩
      · rcases hl with hl | ⟨_, hl⟩
        · exact .inl hl
        · exact .inr ⟨_, _, d, hl, hd, hneg⟩
      · rcases hl with hl | ⟨_, hl⟩
        · rw [hl]
        · exact .single ⟨_, _, d, hne, hd, hneg.le, hl, hcont, himg⟩

theorem basicElse_post (hp : ∀ x y, 0 ≤ metric x y) (h0 : ∀ x, metric x x = 0)
    (hop : NonWorsening ops (pairwise metric) attr P) {init : Labels k} {s : TabuState σ k}
    (hi : TabuInv adj P init s) {best : Option (Nat × Move k × ℚ)}
    (hbest : ∀ j m d, best = some (j, m, d) → Admissible adj s.labels m.area m.new ∧
      (pairwise metric).update m.area m.new s.labels attr = some d ∧ 0 < d) :
    (basicElse ops (pairwise metric) attr adj best s).Post False False fun p =>
      TabuInv adj P init p.2 ∧ p.2.visited = s.visited ∧ p.2.stop = s.stop ∧ p.1 = s.stop ∧
      ReflTransGen (LowerMove adj (pairwise metric) attr) s.labels p.2.labels := by
  unfold basicElse
  refine (aspiration_post hp h0 hop hi).bind ?_
  rintro s1 _ ⟨hi1, hv1, hs1, hl1, hr1⟩
  split_ifs with hst
  · exact ⟨hi1, hv1, hs1, by rw [← hs1, hst], hr1⟩
  · rcases best with _ | ⟨j, m, d⟩
    · exact ⟨hi1, hv1, hs1, by rw [← hs1]; simpa using hst, hr1⟩
    · obtain ⟨hm, hd, hpos⟩ := hbest j m d rfl
      dsimp only
      have hr : ∃ u, s1.labels u = m.new := by
        obtain ⟨_, ⟨u, hu, _⟩, _⟩ := hm
        exact (hi1.image _).2 ((hi.image _).1 ⟨u, hu⟩)
      have hd1 : ∃ d1, (pairwise metric).update m.area m.new s1.labels attr = some d1 :=
        ⟨_, pairwise_update_iff.2 ⟨hr, rfl⟩⟩
      obtain ⟨d1, hd1⟩ := hd1
      refine (tryMove_post (adj := adj) hop hi1.strat hd1 hi1.cont).bind ?_
      rintro ⟨b, s2⟩ _ ⟨hP, hv, hst2, _, htabu, hl, _, hcont⟩
      dsimp only at hP hv hst2 htabu hl hcont ⊢
      have hkeep : s2.labels = s1.labels ∨ (d1 ≤ 0 ∧ s2.labels = moved s1.labels m.area m.new ∧
          s1.labels m.area ≠ m.new ∧ ∃ b, b ≠ m.area ∧ s1.labels b = s1.labels m.area) := by
        rcases hl with hl | ⟨hle, hl⟩
        · exact .inl hl
        · by_cases hsame : s1.labels m.area = m.new
          · left
            rw [hl]
            funext v
            simp only [moved]
            split_ifs with hv
            · rw [hv, hsame]
            · rfl
          · refine .inr ⟨hle, hl, hsame, ?_⟩
            exact (pairwise_stale hp h0 hd hpos hd1 hle hm.2.2.1 hl1).resolve_left hsame
      have himg : ∀ x, (∃ i, s2.labels i = x) ↔ ∃ i, s1.labels i = x := by
        rcases hkeep with hl | ⟨_, hl, _, hb⟩
        · rw [hl]; exact fun _ => Iff.rfl
        · rw [hl]; exact moved_same_image hr (.inr hb)
      refine ⟨⟨hcont, fun x => (himg x).trans (hi1.image x),
        tabu_inv_append hi1.image hi1.tabu htabu, hP⟩, hv.trans hv1, hst2.trans hs1, ?_, ?_⟩
      · rw [← hs1]; cases h : s1.stop with
        | false => rfl
        | true => exact absurd h hst
      · rcases hkeep with hl | ⟨hle, hl, hne, hb⟩
        · rw [hl]; exact hr1
        · exact hr1.tail ⟨_, _, d1, hne, hd1, hle, hl, hcont, himg⟩

theorem basicRound_post (hp : ∀ x y, 0 ≤ metric x y)
    (h0 : ∀ x, metric x x = 0)
    (hop : NonWorsening ops (pairwise metric) attr P) {init : Labels k} {s : TabuState σ k}
    (hi : TabuInv adj P init s) :
    (basicRound ops (pairwise metric) attr adj s).Post False False fun p =>
      TabuInv adj P init p.2 ∧ p.2.visited = s.visited ∧ p.2.stop = s.stop ∧
      ReflTransGen (LowerMove adj (pairwise metric) attr) s.labels p.2.labels ∧
      (p.1 = true → s.stop = true) ∧
      (s.stop = true → p.1 = true ∨ LowerMove adj (pairwise metric) attr s.labels p.2.labels) := by
  have hadm : ∀ m ∈ possibleMoves adj s.labels s.tabu, Admissible adj s.labels m.area m.new :=
    fun m hm => (possibleMoves_admissible hm).2.1
  have hupd : ∀ m ∈ possibleMoves adj s.labels s.tabu,
      ∃ d, (pairwise metric).update m.area m.new s.labels attr = some d := by
    intro m hm
    obtain ⟨_, ⟨u, hu, _⟩, _⟩ := hadm m hm
    exact ⟨_, pairwise_update_iff.2 ⟨⟨u, hu⟩, rfl⟩⟩
  unfold basicRound
  refine (bestMove_post hupd 0 none).bind ?_
  intro best _ hb
  have helse : (∀ j m d, best = some (j, m, d) → Admissible adj s.labels m.area m.new ∧
      (pairwise metric).update m.area m.new s.labels attr = some d ∧ 0 < d) →
      (basicElse ops (pairwise metric) attr adj best s).Post False False fun p =>
      TabuInv adj P init p.2 ∧ p.2.visited = s.visited ∧ p.2.stop = s.stop ∧
      ReflTransGen (LowerMove adj (pairwise metric) attr) s.labels p.2.labels ∧
      (p.1 = true → s.stop = true) ∧
      (s.stop = true → p.1 = true ∨ LowerMove adj (pairwise metric) attr s.labels p.2.labels) := by
    intro h
    refine (basicElse_post hp h0 hop hi h).mono id id ?_
    rintro p ⟨h1, h2, h3, h4, h5⟩
    exact ⟨h1, h2, h3, h5, fun h => h4 ▸ h, fun h => .inl (h4 ▸ h)⟩
  rcases best with _ | ⟨j, m, d⟩
  · exact helse (by simp)
  · dsimp only at hb ⊢
    obtain ⟨hb1, hb2, _⟩ := hb
    obtain ⟨_, hjm, hd⟩ := hb1.resolve_left (by simp)
    have hm : m ∈ possibleMoves adj s.labels s.tabu := List.mem_of_getElem? hjm
    split_ifs with hle
    · refine (tryMove_post (adj := adj) hop hi.strat hd hi.cont).bind ?_
      rintro ⟨b, s1⟩ _ ⟨hP, hv, hst, hb, htabu, hl, hl', hcont⟩
      dsimp only at hP hv hst hb htabu hl hl' hcont ⊢
      rw [if_pos (hb.2 hle)]
      have hmc := moved_contiguous hi.cont (hadm m hm)
      have hlab := hl' hle hmc
      have himg : ∀ x, (∃ i, s1.labels i = x) ↔ ∃ i, s.labels i = x := by
        rw [hlab]; exact moved_image (hadm m hm)
      have hmove : LowerMove adj (pairwise metric) attr s.labels s1.labels :=
        ⟨_, _, d, (hadm m hm).1, hd, hle, hlab, hcont, himg⟩
      refine ⟨⟨hcont, fun x => (himg x).trans (hi.image x),
        tabu_inv_append hi.image hi.tabu htabu, hP⟩, hv, hst, .single hmove, ?_, fun _ => .inr hmove⟩
      intro h; cases h
    · refine helse ?_
      intro j' m' d' h
      cases h
      exact ⟨hadm m hm, hd, not_le.1 hle⟩

/-- No move between different regions leaves the objective unchanged. -/
def NoTies (init : Labels k) (obj : Objective ρ) (attr : Fin k → ρ) : Prop :=
  ∀ L : Labels k, (∀ x, (∃ i, L i = x) ↔ ∃ i, init i = x) → ∀ a r, L a ≠ r →
    obj.update a r L attr ≠ some 0

theorem lowerMoves_le (he : obj.Exact) {L L' : Labels k}
    (h : ReflTransGen (LowerMove adj obj attr) L L') : obj.call L' attr ≤ obj.call L attr := by
  induction h with
  | refl => exact le_rfl
  | tail _ h ih =>
    obtain ⟨a, r, d, _, hd, hle, rfl, _⟩ := h
    rw [he a r _ attr d hd]
    linarith

theorem lowerMove_lt (he : obj.Exact) {init : Labels k} (hnt : NoTies init obj attr) {L L' : Labels k}
    (himg : ∀ x, (∃ i, L i = x) ↔ ∃ i, init i = x)
    (h : LowerMove adj obj attr L L') : obj.call L' attr < obj.call L attr := by
  obtain ⟨a, r, d, hne, hd, hle, rfl, _⟩ := h
  have : d ≠ 0 := by rintro rfl; exact hnt L himg a r hne hd
  have : d < 0 := lt_of_le_of_ne hle this
  rw [he a r _ attr d hd]
  linarith

theorem basicLoop_post (hp : ∀ x y, 0 ≤ metric x y)
    (hsym : ∀ x y, metric x y = metric y x) (h0 : ∀ x, metric x x = 0)
    (hop : NonWorsening ops (pairwise metric) attr P) {init : Labels k} (reps : Int) (T : Prop) :
    ∀ (fuel : Nat) (s : TabuState σ k), TabuInv adj P init s →
      (¬ T → NoTies init (pairwise metric) attr ∧
        roomLeft ((relabelings init).image arrayList) reps s.visited +
          better init (fun l => (pairwise metric).call l attr)
            ((pairwise metric).call s.labels attr) < fuel) →
      (basicLoop ops (pairwise metric) attr adj reps fuel s).Post False T fun s' =>
        TabuInv adj P init s' ∧
        ReflTransGen (LowerMove adj (pairwise metric) attr) s.labels s'.labels := by
  have he : (pairwise metric).Exact := pairwise_exact hsym h0
  intro fuel
  induction fuel with
  | zero =>
    intro s _ hf
    change T
    by_contra hT
    have := (hf hT).2
    omega
  | succ fuel ih =>
    intro s hi hf
    unfold basicLoop
    have hi0 : TabuInv adj P init (noteVisit reps s) := ⟨hi.cont, hi.image, hi.tabu, hi.strat⟩
    refine ((basicRound_post hp h0 hop hi0).mono id False.elim fun _ h => h).bind ?_
    rintro ⟨done, s'⟩ _ ⟨hi', hv, hst, hreach, _, hstop⟩
    dsimp only at hi' hv hst hreach hstop ⊢
    cases done with
    | true => exact ⟨hi', hreach⟩
    | false =>
      rw [if_neg (by simp)]
      refine (ih s' hi' ?_).mono id id ?_
      · intro hT
        obtain ⟨hnt, hlt⟩ := hf hT
        refine ⟨hnt, ?_⟩
        have hle := lowerMoves_le he hreach
        have hbet : better init (fun l => (pairwise metric).call l attr)
            ((pairwise metric).call s'.labels attr) ≤
            better init (fun l => (pairwise metric).call l attr)
            ((pairwise metric).call s.labels attr) := by
          apply Finset.card_le_card
          intro x hx
          simp only [Finset.mem_filter] at hx ⊢
          exact ⟨hx.1, hx.2.trans_le hle⟩
        have hmem : arrayList s.labels ∈ (relabelings init).image arrayList :=
          Finset.mem_image_of_mem _ (mem_relabelings.2 fun v => (hi.image _).1 ⟨v, rfl⟩)
        rw [hv]
        change roomLeft _ reps (s.visited ++ [arrayList s.labels]) + _ < fuel
        by_cases hc : (s.visited.count (arrayList s.labels) : Int) < reps
        · have := roomLeft_lt hmem hc
          omega
        · have hroom : roomLeft ((relabelings init).image arrayList) reps
              (s.visited ++ [arrayList s.labels]) ≤
              roomLeft ((relabelings init).image arrayList) reps s.visited := by
            apply Finset.sum_le_sum
            intro x _
            have : s.visited.count x ≤ (s.visited ++ [arrayList s.labels]).count x := by
              rw [List.count_append]; omega
            omega
          have hstop' := (hstop (by
            change (s.stop || decide (reps ≤ (s.visited.count (arrayList s.labels) : Int))) = true
            simp [not_lt.1 hc])).resolve_left (by simp)
          have hl := lowerMove_lt he hnt hi.image hstop'
          have := better_lt (init := init) (g := fun l => (pairwise metric).call l attr) hl
            (mem_relabelings.2 fun v => (hi'.image _).1 ⟨v, rfl⟩)
          omega
      · rintro s2 ⟨h1, h2⟩
        exact ⟨h1, hreach.trans h2⟩

end Basic

end Region
