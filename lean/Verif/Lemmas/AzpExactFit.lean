import Verif.Lemmas.AzpExact
import Verif.Lemmas.AzpFit
/-
All possible results of `fit`: the loop over the components.
-/
namespace Region

open Spec Res

section
variable {n q k : Nat} {ρ : Type} {expf : ℚ → ℚ} {idx : Fin k → Fin n} {attr : Fin k → ρ}
  {obj : Objective ρ}

/-- The default strategy makes a move when it does not raise the objective. -/
theorem azp_decides (he : obj.Exact) (ht : obj.Total) (adj : Adj k) :
    Decides (Strat.ops (q := q) expf idx attr obj) adj
      (fun L a r => obj.call (moved L a r) attr ≤ obj.call L attr) (AzpTracks n q obj attr) := by
  constructor
  · intro L st a r _ hm hP hal
    obtain ⟨_, ⟨u, hu, _⟩, hb, _⟩ := hm
    obtain ⟨d, hd⟩ := ht a r L attr ⟨u, hu⟩ hb
    unfold AzpTracks at hP
    subst hP
    have := he a r L attr d hd
    refine ⟨.azp (obj.call L attr + d), fun rng => ?_, by unfold AzpTracks; rw [this]⟩
    change Strat.call expf idx attr obj _ a r L rng = _
    unfold Strat.call
    rw [hd]
    dsimp only
    rw [if_pos (by linarith)]
  · intro L st a r _ hm hP hal
    obtain ⟨_, ⟨u, hu, _⟩, hb, _⟩ := hm
    obtain ⟨d, hd⟩ := ht a r L attr ⟨u, hu⟩ hb
    unfold AzpTracks at hP
    subst hP
    have := he a r L attr d hd
    refine ⟨.azp (obj.call L attr), fun rng => ?_, rfl⟩
    change Strat.call expf idx attr obj _ a r L rng = _
    unfold Strat.call
    rw [hd]
    dsimp only
    rw [if_neg (by intro h; exact hal (by linarith))]

theorem azp_objVal {L : Labels k} {st : Strat n q} (h : AzpTracks n q obj attr L st) :
    (Strat.ops (q := q) expf idx attr obj).objVal st = obj.call L attr := by
  unfold AzpTracks at h
  subst h
  rfl

/-- What the Max-p decorator refuses. -/
theorem maxpBlocks_iff {sp : Fin k → Fin q → ℚ} {thr : Fin q → ℚ} {a : Fin k} {L : Labels k} :
    Strat.maxpBlocks sp thr a L = false ↔ Dispensable sp thr L a := by
  have hsum : ∀ j, ((whereEq L (L a)).map fun i => sp i j).sum - sp a j =
      ∑ᶠ (u : Fin k) (_ : L u = L a ∧ u ≠ a), sp u j := by
    intro j
    rw [sum_map_whereEq, finsum_eq_sum_of_fintype]
    simp_rw [finsum_eq_if]
    rw [← Finset.sum_filter]
    have : Finset.univ.filter (fun u => L u = L a ∧ u ≠ a) =
        (Finset.univ.filter fun u => L u = L a).erase a := by
      ext u
      simp only [Finset.mem_filter, Finset.mem_univ, true_and, Finset.mem_erase]
      exact and_comm
    rw [this, ← Finset.sum_erase_add (Finset.univ.filter fun u => L u = L a) _ (a := a) (by simp)]
    ring
  unfold Strat.maxpBlocks Dispensable
  simp only [hsum]
  split_ifs with h
  · rw [List.any_eq_true] at h
    obtain ⟨j, _, hj⟩ := h
    have hno : ¬ ∀ j, sp a j = 0 := fun h => by simp [h j] at hj
    simp [hno]
  · simp only [true_iff]
    left
    intro j
    by_contra hj
    exact h (List.any_eq_true.2 ⟨j, List.mem_finRange j, by simpa using hj⟩)

/-- The default strategy inside the Max-p decorator. -/
theorem maxp_decides (he : obj.Exact) (ht : obj.Total) (adj : Adj k) (spat : Fin n → Fin q → ℚ)
    (thr : Fin q → ℚ) (v : ℚ) :
    Decides (Strat.ops (q := q) expf idx attr obj) adj
      (fun L a r => Dispensable (fun i => spat (idx i)) thr L a ∧
        obj.call (moved L a r) attr ≤ obj.call L attr)
      (fun L st => st = .maxp spat thr v (.azp (obj.call L attr))) := by
  have hd := azp_decides (q := q) (expf := expf) (idx := idx) (attr := attr) he ht adj
  constructor
  · intro L st a r hc hm hP hal
    subst hP
    obtain ⟨st', h1, h2⟩ := hd.yes hc hm (st := .azp (obj.call L attr)) rfl hal.2
    refine ⟨.maxp spat thr v st', fun rng => ?_, by unfold AzpTracks at h2; rw [h2]⟩
    change Strat.call expf idx attr obj _ a r L rng = _
    unfold Strat.call
    rw [maxpBlocks_iff.2 hal.1, if_neg (by simp)]
    have := h1 rng
    change Strat.call expf idx attr obj _ a r L rng = _ at this
    rw [this]
  · intro L st a r hc hm hP hal
    subst hP
    refine ⟨.maxp spat thr v (.azp (obj.call L attr)), fun rng => ?_, rfl⟩
    change Strat.call expf idx attr obj _ a r L rng = _
    unfold Strat.call
    by_cases hb : Dispensable (fun i => spat (idx i)) thr L a
    · rw [maxpBlocks_iff.2 hb, if_neg (by simp)]
      obtain ⟨st', h1, h2⟩ := hd.no hc hm (st := .azp (obj.call L attr)) rfl fun h => hal ⟨hb, h⟩
      have := h1 rng
      change Strat.call expf idx attr obj _ a r L rng = _ at this
      rw [this]
      unfold AzpTracks at h2
      rw [h2]
    · rw [← maxpBlocks_iff, Bool.not_eq_false] at hb
      rw [if_pos hb]

end

section Fit
variable {σ ρ : Type} {n : Nat} (adj : Adj n) (attr : Fin n → ρ) (comp : CompFn σ n ρ)
  (S : σ → Prop) (Z : (idx : List (Fin n)) → Labels idx.length → Labels idx.length → Prop)

/-- On the array `y` the routine `comp` can return what `Z` says and nothing else. -/
structure ExactStep (y : Labels n) : Prop where
  sound : ∀ st rng out st' rng', S st →
    comp (shown y) (subAdj adj (shown y)) (fun i => y ((shown y).get i)) (fun i => attr ((shown y).get i))
      st rng = .ok (out, st', rng') → Z (shown y) (fun i => y ((shown y).get i)) out ∧ S st'
  complete : ∀ st out, S st → Z (shown y) (fun i => y ((shown y).get i)) out →
    ∃ st', S st' ∧ ∀ r', ∃ r0, comp (shown y) (subAdj adj (shown y)) (fun i => y ((shown y).get i))
      (fun i => attr ((shown y).get i)) st r0 = .ok (out, st', r')

variable {adj attr comp S Z}

theorem fitLoop_sound : ∀ {ys : List (Labels n)}, (∀ y ∈ ys, ExactStep adj attr comp S Z y) →
    ∀ {L L' : Labels n} {st st' : σ} {rng rng' : Rng}, S st →
    fitLoop adj attr comp (ys.map fun y r => .ok (.array y, r)) L st rng = .ok (L', st', rng') →
    Fitted Z ys L L' ∧ S st' := by
  intro ys
  induction ys with
  | nil => intro _ L L' st st' rng rng' hS h; cases h; exact ⟨.nil _, hS⟩
  | cons y ys ih =>
    intro hy L L' st st' rng rng' hS h
    rw [List.map_cons] at h
    unfold fitLoop at h
    rw [Res.bind_ok] at h
    dsimp only at h
    rw [Res.bind_eq_ok] at h
    obtain ⟨⟨L1, st1, rng1⟩, h1, h2⟩ := h
    unfold fitStep at h1
    dsimp only at h1
    rw [Res.bind_eq_ok] at h1
    obtain ⟨⟨out, st2, rng2⟩, h3, h4⟩ := h1
    cases h4
    obtain ⟨hz, hS'⟩ := (hy y (by simp)).sound _ _ _ _ _ hS h3
    obtain ⟨hf, hS''⟩ := ih (fun y h => hy y (by simp [h])) hS' h2
    exact ⟨.cons y ys L L' out hz hf, hS''⟩

theorem fitLoop_complete {ys : List (Labels n)} {L L' : Labels n} (hf : Fitted Z ys L L') :
    (∀ y ∈ ys, ExactStep adj attr comp S Z y) → ∀ {st : σ}, S st →
    ∃ st', S st' ∧ ∀ r', ∃ r0,
      fitLoop adj attr comp (ys.map fun y r => .ok (.array y, r)) L st r0 = .ok (L', st', r') := by
  induction hf with
  | nil L => intro _ st hS; exact ⟨st, hS, fun r' => ⟨r', rfl⟩⟩
  | cons y ys L L' out hz _ ih =>
    intro hy st hS
    obtain ⟨st1, hS1, h1⟩ := (hy y (by simp)).complete st out hS hz
    obtain ⟨st', hS', h2⟩ := ih (fun y h => hy y (by simp [h])) hS1
    refine ⟨st', hS', fun r' => ?_⟩
    obtain ⟨r1, h2⟩ := h2 r'
    obtain ⟨r0, h1⟩ := h1 r1
    refine ⟨r0, ?_⟩
    rw [List.map_cons]
    unfold fitLoop
    rw [Res.bind_ok]
    dsimp only
    have : fitStep adj attr comp y L st r0 = .ok (scatter (shown y) out L, st1, r1) := by
      unfold fitStep
      dsimp only
      rw [show (List.finRange n).filter (fun i => decide (y i ≠ -1)) = shown y from rfl, h1]
      rfl
    rw [this, Res.bind_ok]
    exact h2

/-- A clustering put together from results for the arrays. -/
theorem fitted_of : ∀ {ys : List (Labels n)} {L L' : Labels n},
    (∀ v, (∀ y ∈ ys, y v = -1) → L' v = L v) →
    (∀ y ∈ ys, Z (shown y) (fun i => y ((shown y).get i)) (fun i => L' ((shown y).get i))) →
    Fitted Z ys L L' := by
  intro ys
  induction ys with
  | nil =>
    intro L L' h _
    have : L' = L := funext fun v => h v (by simp)
    subst this; exact .nil _
  | cons y ys ih =>
    intro L L' h hz
    refine .cons y ys L L' _ (hz y (by simp)) (ih (fun v hv => ?_) fun y h => hz y (by simp [h]))
    by_cases hyv : y v = -1
    · rw [scatter_not_mem _ _ (by rw [mem_shown]; simp [hyv])]
      refine h v fun y' hy' => ?_
      rcases List.mem_cons.1 hy' with rfl | hy'
      · exact hyv
      · exact hv y' hy'
    · obtain ⟨i, hi⟩ := List.get_of_mem (mem_shown.2 hyv)
      rw [← hi]
      exact (scatter_mem (shown_nodup y) (fun i => L' ((shown y).get i)) L i).symm

end Fit

theorem compArray_get {n : Nat} (adj : Adj n) (lab : Labels n) (c : Nat) :
    (fun i => compArray adj lab c ((shown (compArray adj lab c)).get i)) =
      fun i => lab ((shown (compArray adj lab c)).get i) := by
  funext i
  have hi := mem_shown.1 (List.get_mem (shown (compArray adj lab c)) i)
  have := (compArray_ne.1 hi).1
  change (if compLabels adj ((shown (compArray adj lab c)).get i) = c then _ else _) = _
  rw [if_pos this]

section
variable {σ ρ : Type} {n : Nat} (o : MstOrder) {adj : Adj n} {attr : Fin n → ρ}
  {comp : CompFn σ n ρ} {S : σ → Prop}
  {Z : (idx : List (Fin n)) → Labels idx.length → Labels idx.length → Prop} {p : Int} {init : Labels n}

theorem feasible_start (hc : AllContiguous adj init) (hp : (numRegions init : Int) = p) :
    assertFeasible init adj (some p) = .ok () := by
  unfold assertFeasible
  dsimp only
  rw [length_unique_labels, if_neg (not_not.2 hp), assertLoop_ok_iff, allContiguous_iff]
  exact hc

theorem exactStep_separate (hstep : ∀ c, c < nComponents adj → ExactStep adj attr comp S Z (compArray adj init c)) :
    ∀ y ∈ separateComponents adj init, ExactStep adj attr comp S Z y := by
  intro y hy
  rw [separateComponents_eq] at hy
  obtain ⟨c, hc, rfl⟩ := List.mem_map.1 hy
  exact hstep c (by simpa using hc)

/-- What `fit` makes of a given start, in terms of the components … -/
theorem fitWith_sound (hc : AllContiguous adj init) (hp : (numRegions init : Int) = p)
    (hstep : ∀ c, c < nComponents adj → ExactStep adj attr comp S Z (compArray adj init c))
    {st : σ} (hst : S st) {L : Labels n} {rng : Rng} {st' : σ} {rng' : Rng}
    (h : fitWith o adj attr comp p (some init) st rng = .ok (L, st', rng')) :
    ((∀ v, init v = -1 → L v = -1) ∧ ∀ c, c < nComponents adj →
        Z (shown (compArray adj init c)) (fun i => init ((shown (compArray adj init c)).get i))
          (fun i => L ((shown (compArray adj init c)).get i))) ∧ S st' := by
  unfold fitWith at h
  dsimp only at h
  rw [feasible_start hc hp, Res.bind_ok] at h
  have := fitLoop_sound (exactStep_separate hstep) hst h
  exact ⟨fit_result this.1, this.2⟩

/-- … it can make everything of the kind. -/
theorem fitWith_complete (hc : AllContiguous adj init) (hp : (numRegions init : Int) = p)
    (hstep : ∀ c, c < nComponents adj → ExactStep adj attr comp S Z (compArray adj init c))
    {st : σ} (hst : S st) {L : Labels n} (h1 : ∀ v, init v = -1 → L v = -1)
    (h2 : ∀ c, c < nComponents adj →
        Z (shown (compArray adj init c)) (fun i => init ((shown (compArray adj init c)).get i))
          (fun i => L ((shown (compArray adj init c)).get i))) :
    ∃ st', S st' ∧ ∀ r', ∃ r, fitWith o adj attr comp p (some init) st r = .ok (L, st', r') := by
  have hf : Fitted Z (separateComponents adj init) (fun _ => -1) L := by
    refine fitted_of (fun v hv => ?_) fun y hy => ?_
    · apply h1
      by_contra hne
      refine absurd (hv (compArray adj init (compLabels adj v)) ?_) (compArray_ne.2 ⟨rfl, hne⟩)
      rw [separateComponents_eq]
      exact List.mem_map.2 ⟨_, by simpa using compLabels_lt adj v, rfl⟩
    · rw [separateComponents_eq] at hy
      obtain ⟨c, hc, rfl⟩ := List.mem_map.1 hy
      rw [compArray_get]
      exact h2 c (by simpa using hc)
  obtain ⟨st', hS, h⟩ := fitLoop_complete hf (exactStep_separate hstep) hst
  refine ⟨st', hS, fun r' => ?_⟩
  obtain ⟨r0, h⟩ := h r'
  refine ⟨r0, ?_⟩
  unfold fitWith
  dsimp only
  rw [feasible_start hc hp, Res.bind_ok]
  exact h

/-- Both together. -/
theorem fitWith_exact (hc : AllContiguous adj init) (hp : (numRegions init : Int) = p)
    (hstep : ∀ c, c < nComponents adj → ExactStep adj attr comp S Z (compArray adj init c))
    {st : σ} (hst : S st) (L : Labels n) :
    (∃ rng st' rng', fitWith o adj attr comp p (some init) st rng = .ok (L, st', rng')) ↔
      (∀ v, init v = -1 → L v = -1) ∧ ∀ c, c < nComponents adj →
        Z (shown (compArray adj init c)) (fun i => init ((shown (compArray adj init c)).get i))
          (fun i => L ((shown (compArray adj init c)).get i)) := by
  constructor
  · rintro ⟨rng, st', rng', h⟩
    exact (fitWith_sound o hc hp hstep hst h).1
  · rintro ⟨h1, h2⟩
    obtain ⟨st', _, h⟩ := fitWith_complete o hc hp hstep hst h1 h2
    obtain ⟨r, h⟩ := h fun _ => 0
    exact ⟨r, st', _, h⟩

end

end Region
