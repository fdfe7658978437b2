import Verif.Lemmas.MaxPMore
/-
Lemmas about reactive tabu search with the strategy of the max-p heuristic.
-/
namespace Region

open Spec Relation Props

section
variable {σ : Type} {k : Nat} {ρ : Type} {ops : StratOps σ k} {obj : Objective ρ} {attr : Fin k → ρ}
  {adj : Adj k} {G : Labels k → Prop} {P : σ → Prop}

/-- The current and the stored labellings are contiguous and satisfy `G`. -/
def ReactKeeps (adj : Adj k) (G : Labels k → Prop) (P : σ → Prop) (s : TabuState σ k) : Prop :=
  AllContiguous adj s.labels ∧ G s.labels ∧ P s.strat ∧
    ∀ l ∈ s.visited, ∃ L, l = arrayList L ∧ AllContiguous adj L ∧ G L

theorem tryMove_visited {m : Move k} {s : TabuState σ k} {p : Bool × TabuState σ k}
    (h : tryMove ops adj m s = .ok p) : p.2.visited = s.visited := by
  unfold tryMove at h
  rw [Res.bind_eq_ok] at h
  obtain ⟨⟨al, st, rng⟩, _, h⟩ := h
  dsimp only at h
  cases al with
  | true =>
    rw [if_pos rfl, Res.bind_eq_ok] at h
    obtain ⟨⟨b, L, t⟩, _, h⟩ := h
    cases h
    rfl
  | false =>
    rw [if_neg (by simp)] at h
    cases h
    rfl

theorem tryMove_reactKeeps (hJ : CallKeeps ops fun L st => G L ∧ P st) (m : Move k)
    (s : TabuState σ k) (hi : ReactKeeps adj G P s) :
    (tryMove ops adj m s).Post True True fun p =>
      ReactKeeps adj G P p.2 ∧ p.2.visited = s.visited := by
  have h1 := tryMove_keeps hJ m s hi.1 ⟨hi.2.1, hi.2.2.1⟩
  apply Res.post_partial.2
  intro p hp
  obtain ⟨h2, h3, h4⟩ := h1.ok hp
  have hv := tryMove_visited hp
  exact ⟨⟨h2, h3, h4, by rw [hv]; exact hi.2.2.2⟩, hv⟩

theorem randomMoves_reactKeeps (hJ : CallKeeps ops fun L st => G L ∧ P st) :
    ∀ (c : Nat) (moves : List (Move k)) (s : TabuState σ k), ReactKeeps adj G P s →
      (randomMoves ops adj c moves s).Post True True fun s' => ReactKeeps adj G P s' := by
  intro c
  induction c with
  | zero => intro moves s hi; exact hi
  | succ c ih =>
    intro moves s hi
    unfold randomMoves
    refine Res.Post.bind (Q := fun _ => True) (Res.post_partial.2 fun _ _ => trivial) ?_
    rintro ⟨m, rest, rng⟩ _ _
    refine (tryMove_reactKeeps hJ m { s with rng := rng } hi).bind ?_
    rintro ⟨b, s'⟩ _ ⟨h3, _⟩
    exact ih rest s' h3

theorem reactRound_keeps (hJ : CallKeeps ops fun L st => G L ∧ P st) (k1 k2 : Int) (avg : ℚ)
    {s : TabuState σ k} (hi : ReactKeeps adj G P s) :
    (reactRound ops obj attr adj k1 k2 avg s).Post True True fun p =>
      ReactKeeps adj G P p.2 ∧
      ∀ saved, p.1 = .eleven saved → ∃ L, saved = arrayList L ∧ AllContiguous adj L ∧ G L := by
  unfold reactRound
  dsimp only
  refine Res.Post.bind (Q := fun _ => True) (Res.post_partial.2 fun _ _ => trivial) ?_
  intro best _ _
  rcases best with _ | ⟨j, m, d⟩
  · trivial
  · dsimp only
    refine (tryMove_reactKeeps hJ m s hi).bind ?_
    rintro ⟨b, s1⟩ _ ⟨h1, _⟩
    dsimp only at h1 ⊢
    have hten : ReactKeeps adj G P { s1 with visited := s1.visited ++ [arrayList s1.labels] } := by
      refine ⟨h1.1, h1.2.1, h1.2.2.1, ?_⟩
      intro l hl
      rcases List.mem_append.1 hl with hl | hl
      · exact h1.2.2.2 l hl
      · rw [List.mem_singleton] at hl
        exact ⟨_, hl, h1.1, h1.2.1⟩
    have helv : ∀ c moves, (randomMoves ops adj c moves { s1 with visited := [] } >>= fun s' =>
        Res.ok (LastStep.eleven (arrayList s1.labels), s')).Post True True fun p =>
        ReactKeeps adj G P p.2 ∧
        ∀ saved, p.1 = .eleven saved → ∃ L, saved = arrayList L ∧ AllContiguous adj L ∧ G L := by
      intro c moves
      refine (randomMoves_reactKeeps hJ c moves { s1 with visited := [] }
        ⟨h1.1, h1.2.1, h1.2.2.1, by simp⟩).bind ?_
      intro s2 _ h2
      refine ⟨h2, ?_⟩
      rintro saved ⟨⟩
      exact ⟨_, rfl, h1.1, h1.2.1⟩
    split_ifs
    · exact helv _ _
    · trivial
    · exact helv _ _
    · trivial
    · exact ⟨hten, by simp⟩
    · exact ⟨hten, by simp⟩

theorem reactLoop_keeps (hJ : CallKeeps ops fun L st => G L ∧ P st) (k1 k2 : Int) (avg : ℚ) :
    ∀ (it : Nat) (start : Option ℚ) (last : Option LastStep) (s : TabuState σ k),
      ReactKeeps adj G P s →
      (∀ saved, last = some (.eleven saved) → ∃ L, saved = arrayList L ∧ AllContiguous adj L ∧ G L) →
      (reactLoop ops obj attr adj k1 k2 avg it start last s).Post True True fun p =>
        ReactKeeps adj G P p.2 ∧
        ∀ saved, p.1 = some (.eleven saved) → ∃ L, saved = arrayList L ∧ AllContiguous adj L ∧ G L := by
  intro it
  induction it with
  | zero => intro start last s hi hl; exact ⟨hi, hl⟩
  | succ it ih =>
    intro start last s hi hl
    unfold reactLoop
    dsimp only
    split_ifs with hc
    · refine (reactRound_keeps hJ k1 k2 avg hi).bind ?_
      rintro ⟨l, s1⟩ _ ⟨h1, h2⟩
      dsimp only at h1 h2 ⊢
      refine ih _ _ s1 h1 ?_
      intro saved hsv
      cases hsv
      exact h2 saved rfl
    · exact ⟨hi, hl⟩

theorem reactComponentList_keeps (hJ : CallKeeps ops fun L st => G L ∧ P st) {init : Labels k}
    (hc : AllContiguous adj init) (hg : G init) (maxIt : Nat) (k1 k2 : Int) (self : ReactObj σ)
    (hP : P self.strat)
    (hv : ∀ l ∈ self.visited, ∃ L, l = arrayList L ∧ AllContiguous adj L ∧ G L) :
    (reactComponentList ops obj attr adj maxIt k1 k2 init self).Post True True fun p =>
      (∃ L, p.1 = arrayList L ∧ AllContiguous adj L ∧ G L) ∧ P p.2.strat ∧
      ∀ l ∈ p.2.visited, ∃ L, l = arrayList L ∧ AllContiguous adj L ∧ G L := by
  unfold reactComponentList
  split_ifs with h1
  · exact ⟨⟨init, rfl, hc, hg⟩, hP, hv⟩
  · refine (reactLoop_keeps hJ k1 k2 self.avg maxIt none none _ ⟨hc, hg, hP, hv⟩ (by simp)).bind ?_
    rintro ⟨last, s⟩ _ ⟨h2, h3⟩
    dsimp only at h2 h3 ⊢
    refine Res.Post.bind (Q := fun out => ∃ L, out = arrayList L ∧ AllContiguous adj L ∧ G L)
      (Res.post_partial.2 ?_) ?_
    · intro out h4
      unfold reactResult at h4
      split at h4
      · cases h4
      · split at h4
        · rename_i a b rest heq
          cases h4
          apply h2.2.2.2
          rw [← List.mem_reverse, heq]; simp
        · rename_i a heq
          cases h4
          apply h2.2.2.2
          rw [← List.mem_reverse, heq]; simp
        · cases h4
      · cases h4
        exact h3 _ rfl
    · intro out _ h5
      exact ⟨h5, h2.2.2.1, h2.2.2.2⟩

end

/-! ### A connected map has one component, with the areas in order -/

theorem sigma_of_cast {α : Nat → Type} {k n : Nat} (h : k = n) (a : α k) (b : α n)
    (hab : h ▸ a = b) : (⟨k, a⟩ : Σ k, α k) = ⟨n, b⟩ := by
  subst h
  cases hab
  rfl

/-- The data of the component made of all areas in order are the data of the map. -/
theorem whole_component {n q : Nat} (adj : Adj n) (spat : Fin n → Fin q → ℚ) {idx : List (Fin n)}
    (h : idx = List.finRange n) :
    (⟨idx.length, subAdj adj idx, fun i => spat (idx.get i)⟩ :
      Σ k, Adj k × (Fin k → Fin q → ℚ)) = ⟨n, adj, spat⟩ := by
  have hl : idx.length = n := by rw [h, List.length_finRange]
  have hget : ∀ i : Fin idx.length, idx.get i = Fin.cast hl i := by
    subst h
    intro i
    simp [Fin.cast]
  have key : ∀ (m : Nat) (hm : m = n) (f : Fin m → Fin n), (∀ i, f i = Fin.cast hm i) →
      (⟨m, fun i j => adj (f i) (f j), fun i => spat (f i)⟩ :
        Σ k, Adj k × (Fin k → Fin q → ℚ)) = ⟨n, adj, spat⟩ := by
    intro m hm f hf
    subst hm
    have : f = id := funext fun i => by rw [hf]; rfl
    subst this
    rfl
  exact key _ hl (fun i => idx.get i) hget

theorem arrayList_whole {n : Nat} (L : Labels n) {idx : List (Fin n)} (h : idx = List.finRange n) :
    arrayList (fun i => L (idx.get i)) = arrayList L := by
  subst h
  unfold arrayList
  have hl : (List.finRange n).length = n := List.length_finRange
  apply List.ext_getElem
  · simp
  · intro i h1 h2
    simp

theorem shown_connected {n : Nat} {adj : Adj n} (hcon : Connected adj) {lab : Labels n}
    (h0 : ∀ v, lab v ≠ -1) {c : Nat} (hc : c < nComponents adj) :
    shown (compArray adj lab c) = List.finRange n := by
  unfold shown
  rw [List.filter_eq_self]
  intro v _
  rw [decide_eq_true_eq]
  obtain ⟨w, hw⟩ := compLabels_surj adj hc
  rw [compArray_ne]
  refine ⟨?_, h0 v⟩
  rw [← hw]
  exact (compLabels_eq_iff adj _ _).2 (hcon.2 v w)

theorem fromArray_arrayList {k : Nat} (L : Labels k) : fromArray k (arrayList L) = .ok L := by
  unfold fromArray
  rw [dif_pos (by simp [arrayList])]
  congr 1
  funext i
  simp [arrayList]

/-- The threshold and, if some threshold is positive, the number of regions. -/
def ThrGood {k q : Nat} (sp : Fin k → Fin q → ℚ) (thr : Fin q → ℚ) (p : Nat) (L : Labels k) : Prop :=
  MeetsThreshold L sp thr ∧ ((∃ j, 0 < thr j) → numRegions L = p)

theorem thrGood_callKeeps {n q k : Nat} {ρ : Type} {spat : Fin n → Fin q → ℚ} {thr : Fin q → ℚ}
    (expf : ℚ → ℚ) (metric : ρ → ρ → ℚ) (hpos : ∀ v j, 0 ≤ spat v j) (idx : Fin k → Fin n)
    (attr : Fin k → ρ) (p : Nat) :
    CallKeeps (Strat.ops (q := q) expf idx attr (pairwise metric)) fun L st =>
      ThrGood (fun i => spat (idx i)) thr p L ∧ st.HasThr spat thr := by
  rintro L st a r rng ⟨h, hst⟩
  have := thrInv_callKeeps expf metric hpos idx attr L L st a r rng ⟨.refl _ _ _, hst⟩
  apply this.mono id id
  rintro ⟨b, st', rng'⟩ ⟨h1, h2⟩
  refine ⟨⟨h, h1.2⟩, fun hb => ⟨?_, (h2 hb).2⟩⟩
  obtain ⟨g1, g2⟩ := (h2 hb).1
  refine ⟨(g2 h.1).1, fun hthr => ?_⟩
  rw [← h.2 hthr]
  unfold numRegions
  congr 1
  ext x
  simp only [Finset.mem_image, Finset.mem_univ, true_and]
  constructor
  · rintro ⟨i, rfl⟩; exact g1 i
  · rintro ⟨i, rfl⟩; exact (g2 h.1).2 hthr i

/-- A stored labelling is a good labelling of the map `D`. -/
def GoodList {q : Nat} (thr : Fin q → ℚ) (p : Nat) (D : Σ k, Adj k × (Fin k → Fin q → ℚ))
    (l : List Int) : Prop :=
  ∃ L : Labels D.1, l = arrayList L ∧ AllContiguous D.2.1 L ∧ ThrGood D.2.2 thr p L

/-- Reactive tabu search on a connected map with the decorated strategy. -/
theorem maxp_reactiveTabuFit {n q : Nat} {ρ : Type} {spat : Fin n → Fin q → ℚ} {thr : Fin q → ℚ}
    (o : MstOrder) (expf : ℚ → ℚ) (metric : ρ → ρ → ℚ) (hpos : ∀ v j, 0 ≤ spat v j) {adj : Adj n}
    (hcon : Connected adj) (attr : Fin n → ρ) (p : Nat) (init : Labels n) (h0 : ∀ v, init v ≠ -1)
    (hm : MeetsThreshold init spat thr) (maxIt : Nat) (k1 k2 : Int) (self : ReactSelf (Strat n q))
    (hst : self.strat.HasThr spat thr)
    (hv : ∀ l ∈ self.visited, GoodList thr p ⟨n, adj, spat⟩ l) (rng : Rng) :
    (reactiveTabuFit o expf (pairwise metric) maxIt k1 k2 adj attr p (some init) self rng).Post
      True True fun q => (q.2.1.strat.HasThr spat thr ∧
        ∀ l ∈ q.2.1.visited, GoodList thr p ⟨n, adj, spat⟩ l) ∧
        AllContiguous adj q.1 ∧ ThrGood spat thr p q.1 := by
  have := fitWith_post (σ := ReactSelf (Strat n q)) o (adj := adj) (attr := attr)
    (comp := fun idx a init at' self rng => do
      let (out, self') ← reactComponentList (Strat.ops expf (fun i => idx.get i) at'
        (pairwise metric)) (pairwise metric) at' a maxIt k1 k2 init
        ⟨self.visited, self.avg, self.repCounter,
          self.strat.start ((pairwise metric).call init at'), rng⟩
      let labels ← fromArray idx.length out
      .ok (labels, ⟨self'.visited, self'.avg, self'.repCounter, self'.strat⟩, self'.rng))
    (S := fun self => self.strat.HasThr spat thr ∧
      ∀ l ∈ self.visited, GoodList thr p ⟨n, adj, spat⟩ l)
    (Q := fun _ _ out => GoodList thr p ⟨n, adj, spat⟩ (arrayList out)) (R := True) (T := True)
    p (some init) (fun h => absurd trivial h) (by
      rintro lab ⟨hl1, hl2, rfl⟩ c hc st rng ⟨hst, hv⟩
      have hidx := shown_connected hcon h0 hc
      have hy : ∀ v, compArray adj lab c v = lab v := by
        intro v
        have hv : v ∈ shown (compArray adj lab c) := by rw [hidx]; exact List.mem_finRange v
        have := (compArray_ne.1 (mem_shown.1 hv)).1
        unfold compArray
        rw [if_pos this]
      have hD := whole_component adj spat hidx
      have hgl : GoodList thr p ⟨n, adj, spat⟩
          (arrayList fun i => compArray adj lab c ((shown (compArray adj lab c)).get i)) := by
        rw [arrayList_whole (compArray adj lab c) hidx, funext hy]
        exact ⟨lab, rfl, hl1, hm, fun _ => by exact_mod_cast hl2⟩
      generalize hinit : (fun i => compArray adj lab c ((shown (compArray adj lab c)).get i)) =
        init' at hgl ⊢
      generalize shown (compArray adj lab c) = idx at hidx hD init' hgl ⊢
      clear hinit hy
      rw [← hD] at hgl
      obtain ⟨L0, e, hcont, hgood⟩ := hgl
      have e := arrayList_inj e
      subst e
      refine (reactComponentList_keeps (G := ThrGood (fun i => spat (idx.get i)) thr p)
        (P := fun st => st.HasThr spat thr)
        (thrGood_callKeeps expf metric hpos (fun i => idx.get i) _ p) hcont hgood maxIt k1 k2 _
        (hst.start _) ?_).bind ?_
      · intro l hl
        have := hv l hl
        rw [← hD] at this
        exact this
      · rintro ⟨out, self'⟩ _ ⟨⟨L, hL, g1, g2⟩, g3, g4⟩
        dsimp only at hL g3 g4 ⊢
        subst hL
        rw [fromArray_arrayList, Res.bind_ok]
        refine ⟨?_, g3, ?_⟩
        · change GoodList thr p ⟨n, adj, spat⟩ (arrayList L)
          rw [← hD]
          exact ⟨L, rfl, g1, g2⟩
        · intro l hl
          rw [← hD]
          exact g4 l hl) self ⟨hst, hv⟩ rng
  refine Res.Post.mono this id id ?_
  rintro ⟨L, self', rng'⟩ ⟨h1, lab, ⟨hl1, hl2, rfl⟩, hfit⟩
  refine ⟨h1, ?_⟩
  obtain ⟨_, g2⟩ := fit_result hfit
  obtain ⟨v⟩ := hcon.1
  have hc := compLabels_lt adj v
  have := g2 _ hc
  rw [arrayList_whole _ (shown_connected hcon h0 hc)] at this
  obtain ⟨L', e, g3, g4⟩ := this
  have e := arrayList_inj e
  dsimp only at e ⊢
  subst e
  exact ⟨g3, g4⟩

end Region
