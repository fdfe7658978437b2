import Verif.Lemmas.AzpUtil
/-
Lemmas about the objective during AZP with the default strategy.
-/
namespace Region

open Spec Relation

theorem tg_mono {α : Type} {r s : α → α → Prop} (h : ∀ x y, r x y → s x y) {a b : α}
    (hab : TransGen r a b) : TransGen s a b := by
  induction hab with
  | single h1 => exact .single (h _ _ h1)
  | tail _ h1 ih => exact ih.tail (h _ _ h1)

/-- An admissible move that does not worsen `f`. -/
def GoodMove {k : Nat} (adj : Adj k) (f : Labels k → ℚ) (L L' : Labels k) : Prop :=
  ∃ a r, Admissible adj L a r ∧ L' = moved L a r ∧ f L' ≤ f L

/-- An admissible move that does not change `f`. -/
def NeutralMove {k : Nat} (adj : Adj k) (f : Labels k → ℚ) (L L' : Labels k) : Prop :=
  ∃ a r, Admissible adj L a r ∧ L' = moved L a r ∧ f L' = f L

/-- No admissible move improves `f`. -/
def LocalOpt {k : Nat} (adj : Adj k) (f : Labels k → ℚ) (L : Labels k) : Prop :=
  ∀ a r, Admissible adj L a r → f L ≤ f (moved L a r)

theorem goodMoves_le {k : Nat} {adj : Adj k} {f : Labels k → ℚ} {L L' : Labels k}
    (h : ReflTransGen (GoodMove adj f) L L') : f L' ≤ f L := by
  induction h with
  | refl => exact le_rfl
  | tail _ h ih => obtain ⟨_, _, _, _, h⟩ := h; exact h.trans ih

theorem neutral_of_good {k : Nat} {adj : Adj k} {f : Labels k → ℚ} {L L' : Labels k}
    (h : TransGen (GoodMove adj f) L L') (he : f L ≤ f L') : TransGen (NeutralMove adj f) L L' := by
  induction h with
  | single h =>
    obtain ⟨a, r, h1, h2, h3⟩ := h
    exact .single ⟨a, r, h1, h2, le_antisymm h3 he⟩
  | tail h1 h ih =>
    obtain ⟨a, r, e1, e2, e3⟩ := h
    have := goodMoves_le h1.to_reflTransGen
    exact .tail (ih (he.trans e3)) ⟨a, r, e1, e2, le_antisymm e3 (this.trans he)⟩

section
variable {n q k : Nat} {ρ : Type} {expf : ℚ → ℚ} {idx : Fin k → Fin n} {attr : Fin k → ρ}
  {obj : Objective ρ}

/-- The state of the default strategy. -/
def AzpTracks (n q : Nat) (obj : Objective ρ) (attr : Fin k → ρ) (L : Labels k)
    (st : Strat n q) : Prop := st = .azp (obj.call L attr)

theorem azp_stratOk (expf : ℚ → ℚ) (idx : Fin k → Fin n) (he : obj.Exact) (ht : obj.Total)
    (adj : Adj k) :
    StratOk (Strat.ops (q := q) expf idx attr obj) adj (AzpTracks n q obj attr) False False := by
  intro L st a r rng _ hm hP
  obtain ⟨_, ⟨u, hu, _⟩, hb, _⟩ := hm
  obtain ⟨d, hd⟩ := ht a r L attr ⟨u, hu⟩ hb
  unfold AzpTracks at hP
  subst hP
  change (Strat.call expf idx attr obj _ a r L rng).Post _ _ _
  unfold Strat.call
  rw [hd]
  dsimp only
  split_ifs
  · change Strat.azp _ = Strat.azp (obj.call (moved L a r) attr)
    rw [he a r L attr d hd]
  · rfl

theorem azp_allowed (he : obj.Exact) {adj : Adj k} {L L' : Labels k}
    (h : AllowedMove (Strat.ops (q := q) expf idx attr obj) adj (AzpTracks n q obj attr) L L') :
    GoodMove adj (fun l => obj.call l attr) L L' := by
  obtain ⟨a, r, hm, ⟨st, rng, st', rng', hst, hc⟩, rfl⟩ := h
  unfold AzpTracks at hst
  subst hst
  exact ⟨a, r, hm, rfl, (azp_answer (expf := expf) (idx := idx) he hc).1.1 rfl⟩

theorem azp_refused (he : obj.Exact) {L : Labels k} {a : Fin k} {r : Int}
    (h : Answered (Strat.ops (q := q) expf idx attr obj) (AzpTracks n q obj attr) L a r false) :
    obj.call L attr < obj.call (moved L a r) attr := by
  obtain ⟨st, rng, st', rng', hst, hc⟩ := h
  unfold AzpTracks at hst
  subst hst
  by_contra hcon
  have := (azp_answer (expf := expf) (idx := idx) he hc).1.2 (not_lt.1 hcon)
  cases this

/-- Everything about one component and the default strategy. -/
theorem azp_component (expf : ℚ → ℚ) (idx : Fin k → Fin n) (he : obj.Exact) (ht : obj.Total)
    {adj : Adj k} (hs : Symmetric adj) (hk : 0 < k) {init : Labels k} (hc : AllContiguous adj init)
    (attr : Fin k → ρ) (fuel : Nat) (rng : Rng) :
    (azpComponent (Strat.ops (q := q) expf idx attr obj) adj fuel init
      (.azp (obj.call init attr)) rng).Post False (fuel ≤ k + numRegions init ^ k) fun p =>
      p.2.1 = .azp (obj.call p.1 attr) ∧ KeepsRegions adj init p.1 ∧
      ReflTransGen (GoodMove adj fun l => obj.call l attr) init p.1 ∧
      (LocalOpt adj (fun l => obj.call l attr) p.1 ∨
        ∃ L0, ReflTransGen (GoodMove adj fun l => obj.call l attr) init L0 ∧
          TransGen (NeutralMove adj fun l => obj.call l attr) L0 p.1) ∧
      ∃ r, (∃ i, init i = r) ∧ ∀ a, Admissible adj p.1 a r →
        obj.call p.1 attr < obj.call (moved p.1 a r) attr := by
  have hok := azp_stratOk (q := q) (attr := attr) expf idx he ht adj
  apply (azpComponent_post (T := fuel ≤ k + numRegions init ^ k) hs
    (fun L st a r rng h1 h2 h3 => (hok L st a r rng h1 h2 h3).mono id False.elim fun _ h => h)
    fuel init hk hc (.azp (obj.call init attr))
    (rfl : AzpTracks n q obj attr init _) (fun L => obj.call L attr)
    (fun hT => ⟨by omega, fun L st h => by
      unfold AzpTracks at h; subst h; rfl⟩) rng).mono id id
  rintro ⟨out, st, rng'⟩ ⟨hP, hcont, hreach, hlast⟩
  dsimp only at hP hcont hreach hlast ⊢
  have hgood := rtg_mono (fun _ _ h => azp_allowed he h) hreach
  refine ⟨hP, ⟨hcont, reach_image hreach⟩, hgood, ?_⟩
  by_cases h1 : numRegions init = 1
  · have hsame : ∀ x y, out x = out y := by
      obtain ⟨z, hz⟩ := Finset.card_eq_one.1 h1
      have : ∀ x, out x = z := by
        intro x
        obtain ⟨i, hi⟩ := (reach_image hreach (out x)).1 ⟨x, rfl⟩
        have : init i ∈ Finset.univ.image init := by simp
        rw [hz] at this
        rw [← hi]; simpa using this
      intro x y; rw [this, this]
    have hno : ∀ a r, ¬ Admissible adj out a r := by
      rintro a r ⟨g1, ⟨u, g2, _⟩, _⟩
      exact g1 ((hsame a u).trans g2)
    exact ⟨.inl fun a r h => absurd h (hno a r), init ⟨0, hk⟩, ⟨_, rfl⟩,
      fun a h => absurd h (hno _ _)⟩
  · obtain ⟨L0, st0, hP0, hr0, ⟨_, hsome, hpass⟩, hstop⟩ := hlast h1
    have hne : uniqueSorted (arrayList init) ≠ [] := by
      intro h
      have : init ⟨0, hk⟩ ∈ uniqueSorted (arrayList init) := by
        rw [mem_uniqueSorted, mem_arrayList]; exact ⟨_, rfl⟩
      rw [h] at this; cases this
    constructor
    · rcases hpass with ⟨rfl, hall⟩ | hmoves
      · left
        intro a r hadm
        obtain ⟨u, hu⟩ := hadm.2.1
        have hr : r ∈ uniqueSorted (arrayList init) := by
          rw [mem_uniqueSorted, mem_arrayList]
          exact (reach_image hreach r).1 ⟨u, hu.1⟩
        exact (azp_refused he (hall r hr a hadm)).le
      · right
        refine ⟨L0, rtg_mono (fun _ _ h => azp_allowed he h) hr0, ?_⟩
        apply neutral_of_good
        · exact tg_mono (fun _ _ h => azp_allowed he h) hmoves
        · unfold AzpTracks at hP hP0
          subst hP hP0
          exact not_lt.1 hstop
    · obtain ⟨r, hr, hall⟩ := hsome hne
      rw [mem_uniqueSorted, mem_arrayList] at hr
      exact ⟨r, hr, fun a h => azp_refused he (hall a h)⟩

end

/-! ### The objective of the whole labelling -/

theorem withinPairs_get {n : Nat} (idx : List (Fin n)) (hidx : idx.Pairwise (· < ·))
    (L : Labels n) (d : Fin n → Fin n → ℚ) :
    withinPairs (fun i => L (idx.get i)) (fun i j => d (idx.get i) (idx.get j)) =
      ∑ p ∈ Finset.univ.filter (fun p : Fin n × Fin n =>
        (p.1 ∈ idx ∧ p.2 ∈ idx) ∧ p.1 < p.2 ∧ L p.1 = L p.2), d p.1 p.2 := by
  unfold withinPairs
  have hmono : ∀ i j : Fin idx.length, idx.get i < idx.get j ↔ i < j := by
    have hlt : ∀ i j : Fin idx.length, i < j → idx.get i < idx.get j := fun i j hij =>
      List.pairwise_iff_get.1 hidx i j hij
    intro i j
    refine ⟨fun h => ?_, hlt i j⟩
    rcases lt_trichotomy i j with h' | h' | h'
    · exact h'
    · subst h'; exact absurd h (lt_irrefl _)
    · exact absurd (hlt _ _ h') (not_lt.2 h.le)
  have hinj : ∀ i j : Fin idx.length, idx.get i = idx.get j → i = j := fun i j h =>
    List.Nodup.injective_get (hidx.imp (fun h => ne_of_lt h)) h
  refine Finset.sum_bij (fun p _ => (idx.get p.1, idx.get p.2)) ?_ ?_ ?_ ?_
  · rintro ⟨i, j⟩ h
    simp only [Finset.mem_filter, Finset.mem_univ, true_and] at h ⊢
    exact ⟨⟨List.get_mem _ _, List.get_mem _ _⟩, (hmono _ _).2 h.1, h.2⟩
  · rintro ⟨i, j⟩ _ ⟨i', j'⟩ _ h
    simp only [Prod.mk.injEq] at h
    rw [hinj _ _ h.1, hinj _ _ h.2]
  · rintro ⟨x, y⟩ h
    simp only [Finset.mem_filter, Finset.mem_univ, true_and] at h
    obtain ⟨i, rfl⟩ := List.get_of_mem h.1.1
    obtain ⟨j, rfl⟩ := List.get_of_mem h.1.2
    exact ⟨(i, j), by simpa using ⟨(hmono _ _).1 h.2.1, h.2.2⟩, rfl⟩
  · intros; rfl

theorem shown_sorted {n : Nat} (y : Labels n) : (shown y).Pairwise (· < ·) :=
  (List.pairwise_lt_finRange n).filter _

/-- The pairwise objective of a labelling whose regions do not cross islands is the sum over the
islands, plus the part of the areas labelled -1. -/
theorem withinPairs_split {n : Nat} (adj : Adj n) (lab L : Labels n) (d : Fin n → Fin n → ℚ)
    (hfr : ∀ v, L v = -1 ↔ lab v = -1)
    (hsame : ∀ u v, L u = L v → SameIsland adj u v) :
    withinPairs L d =
      (∑ c ∈ Finset.range (nComponents adj),
        withinPairs (fun i => L ((shown (compArray adj lab c)).get i))
          (fun i j => d ((shown (compArray adj lab c)).get i) ((shown (compArray adj lab c)).get j)))
      + ∑ p ∈ Finset.univ.filter (fun p : Fin n × Fin n =>
          p.1 < p.2 ∧ lab p.1 = -1 ∧ lab p.2 = -1), d p.1 p.2 := by
  have h1 : withinPairs L d =
      (∑ p ∈ Finset.univ.filter (fun p : Fin n × Fin n =>
        (p.1 < p.2 ∧ L p.1 = L p.2) ∧ lab p.1 ≠ -1), d p.1 p.2) +
      ∑ p ∈ Finset.univ.filter (fun p : Fin n × Fin n =>
        (p.1 < p.2 ∧ L p.1 = L p.2) ∧ ¬ lab p.1 ≠ -1), d p.1 p.2 := by
    unfold withinPairs
    rw [← Finset.sum_filter_add_sum_filter_not _ (fun p : Fin n × Fin n => lab p.1 ≠ -1)]
    rw [Finset.filter_filter, Finset.filter_filter]
  rw [h1]
  congr 1
  · rw [← Finset.sum_fiberwise_of_maps_to (t := Finset.range (nComponents adj))
      (g := fun p : Fin n × Fin n => compLabels adj p.1)
      (by intro p _; simpa using compLabels_lt adj p.1)]
    apply Finset.sum_congr rfl
    intro c _
    rw [withinPairs_get _ (shown_sorted _)]
    apply Finset.sum_congr _ fun _ _ => rfl
    ext ⟨u, v⟩
    simp only [Finset.mem_filter, Finset.mem_univ, true_and, mem_shown, compArray_ne]
    constructor
    · rintro ⟨⟨⟨h1, h2⟩, h3⟩, h4⟩
      refine ⟨⟨⟨h4, h3⟩, ?_, ?_⟩, h1, h2⟩
      · rw [← h4]; exact (compLabels_eq_iff adj _ _).2 (sameIsland_symm (hsame _ _ h2))
      · rw [Ne, ← hfr, ← h2, hfr]; exact h3
    · rintro ⟨⟨⟨h1, h2⟩, _⟩, h3, h4⟩
      exact ⟨⟨⟨h3, h4⟩, h2⟩, h1⟩
  · apply Finset.sum_congr _ fun _ _ => rfl
    ext ⟨u, v⟩
    simp only [Finset.mem_filter, Finset.mem_univ, true_and, not_not]
    constructor
    · rintro ⟨⟨h1, h2⟩, h3⟩
      exact ⟨h1, h3, by rw [← hfr, ← h2, hfr]; exact h3⟩
    · rintro ⟨h1, h2, h3⟩
      exact ⟨⟨h1, by rw [(hfr u).2 h2, (hfr v).2 h3]⟩, h2⟩

end Region
