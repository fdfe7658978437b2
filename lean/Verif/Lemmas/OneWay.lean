import Verif.Lemmas.AzpFit
import Verif.Lemmas.AzpUtil
/-
Lemmas about AZP on adjacency matrices that need not be symmetric: what is left of the invariant.
-/
namespace Region

open Spec Relation

/-- What a move of AZP meets even if the matrix is not symmetric. -/
def Loose {k : Nat} (labels : Labels k) (a : Fin k) (r : Int) : Prop :=
  labels a ≠ r ∧ (∃ u, labels u = r) ∧ ∃ b, b ≠ a ∧ labels b = labels a

theorem Loose.image {k : Nat} {labels : Labels k} {a : Fin k} {r : Int} (h : Loose labels a r)
    (x : Int) : (∃ i, moved labels a r i = x) ↔ ∃ i, labels i = x := by
  obtain ⟨hne, ⟨u, hu⟩, b, hb, hba⟩ := h
  constructor
  · rintro ⟨i, hi⟩
    by_cases hia : i = a
    · subst hia; rw [moved_self] at hi; exact ⟨u, hu.trans hi⟩
    · rw [moved_of_ne hia] at hi; exact ⟨i, hi⟩
  · rintro ⟨i, hi⟩
    by_cases hia : i = a
    · subst hia; exact ⟨b, by rw [moved_of_ne hb, hba, hi]⟩
    · exact ⟨i, by rw [moved_of_ne hia, hi]⟩

/-- The dict `region_neighbors` has an entry for every region in use, which only contains areas of other
regions. -/
def NbrsLoose {k : Nat} (labels : Labels k) (nbrs : Int → Option (Fin k → Bool)) : Prop :=
  ∀ r, (∃ i, labels i = r) → ∃ N, nbrs r = some N ∧ ∀ v, N v = true → labels v ≠ r

theorem NbrsOk.loose {k : Nat} {adj : Adj k} {labels : Labels k}
    {nbrs : Int → Option (Fin k → Bool)} (h : NbrsOk adj labels nbrs) : NbrsLoose labels nbrs := by
  intro r hr
  obtain ⟨N, h1, h2⟩ := h r hr
  exact ⟨N, h1, fun v hv => ((h2 v).1 hv).1⟩

theorem mem_candidates_loose {k : Nat} {adj : Adj k} {labels : Labels k} {r : Int}
    (hr : ∃ i, labels i = r) {N : Fin k → Bool} (hN : ∀ v, N v = true → labels v ≠ r) {a : Fin k}
    (h : a ∈ candidates adj labels N) : Loose labels a r := by
  unfold candidates at h
  simp only [List.mem_filter, List.mem_finRange, true_and, Bool.and_eq_true, gt_iff_lt,
    decide_eq_true_eq, one_lt_count_iff] at h
  exact ⟨hN a h.1, hr, h.2.2⟩

theorem applyMove_loose {σ : Type} {k : Nat} (adj : Adj k) {s : AzpState σ k}
    (hN : NbrsLoose s.labels s.nbrs) {a : Fin k} {r : Int} (hm : Loose s.labels a r) :
    ∃ s', applyMove adj r a s = .ok s' ∧ s'.labels = moved s.labels a r ∧
      NbrsLoose s'.labels s'.nbrs ∧ s'.strat = s.strat ∧ s'.rng = s.rng := by
  have himg := hm.image
  obtain ⟨hne, ⟨u, hu⟩, _⟩ := hm
  obtain ⟨ND, hND1, hND2⟩ := hN (s.labels a) ⟨a, rfl⟩
  obtain ⟨NR, hNR1, hNR2⟩ := hN r ⟨u, hu⟩
  unfold applyMove modNbrs
  simp only [hND1, hNR1, Res.bind_ok, hne, Ne.symm hne, if_true, if_false, makeMove_eq_moved]
  refine ⟨_, rfl, rfl, ?_, rfl, rfl⟩
  intro x hx
  rw [himg] at hx
  dsimp only
  by_cases hxD : x = s.labels a
  · subst hxD
    rw [if_pos rfl]
    refine ⟨_, rfl, ?_⟩
    intro v hv
    simp only [Bool.and_eq_true, Bool.or_eq_true, decide_eq_true_eq] at hv
    by_cases hva : v = a
    · subst hva; rw [moved_self]; exact Ne.symm hne
    · rw [moved_of_ne hva]
      exact hND2 v (hv.1.resolve_right hva)
  · rw [if_neg hxD]
    by_cases hxR : x = r
    · subst hxR
      rw [if_pos rfl]
      refine ⟨_, rfl, ?_⟩
      intro v hv
      simp only [Bool.and_eq_true, Bool.not_eq_true', ← Bool.not_eq_true, List.contains_iff_mem,
        mem_whereEq] at hv
      exact hv.2
    · rw [if_neg hxR, if_neg hxR, if_neg hxD]
      obtain ⟨N, hN1, hN2⟩ := hN x hx
      refine ⟨N, hN1, ?_⟩
      intro v hv
      by_cases hva : v = a
      · subst hva; rw [moved_self]; exact Ne.symm hxR
      · rw [moved_of_ne hva]; exact hN2 v hv

section Loops
variable {σ : Type} {k : Nat} (ops : StratOps σ k) (adj : Adj k) (P : Labels k → σ → Prop)

/-- `StratOk` without contiguity: what is assumed of a strategy on a one-way matrix. -/
def LooseOk (R T : Prop) : Prop :=
  ∀ labels st a r rng, Loose labels a r → P labels st →
    (ops.call st a r labels rng).Post R T fun q =>
      P (if q.1 then moved labels a r else labels) q.2.1

/-- One such move allowed by the strategy. -/
def LooseMove (labels labels' : Labels k) : Prop :=
  ∃ a r, Loose labels a r ∧ Answered ops P labels a r true ∧ labels' = moved labels a r

/-- State invariant. -/
structure LooseInv (s : AzpState σ k) : Prop where
  nbrs : NbrsLoose s.labels s.nbrs
  strat : P s.labels s.strat

variable {ops adj P} {R T : Prop}

theorem looseReach_image {labels labels' : Labels k}
    (h : ReflTransGen (LooseMove ops P) labels labels') (x : Int) :
    (∃ i, labels' i = x) ↔ ∃ i, labels i = x := by
  induction h with
  | refl => rfl
  | tail _ h1 ih =>
    obtain ⟨a, r, hm, _, rfl⟩ := h1
    rw [hm.image, ih]

theorem tryCandidates_loose (hok : LooseOk ops P R T) (r : Int) :
    ∀ (fuel : Nat) (cands : List (Fin k)) (s : AzpState σ k), LooseInv P s →
      (∀ c ∈ cands, Loose s.labels c r) → cands.length ≤ fuel →
      (tryCandidates ops adj r fuel cands s).Post R T fun q =>
        LooseInv P q.2 ∧ (q.1 = false → q.2.labels = s.labels) ∧
        (q.1 = true → ∃ a, Loose s.labels a r ∧ Answered ops P s.labels a r true ∧
          q.2.labels = moved s.labels a r) := by
  intro fuel
  induction fuel with
  | zero =>
    intro cands s hi hc hl
    have : cands = [] := by simpa using hl
    subst this
    exact ⟨hi, fun _ => rfl, fun h => by cases h⟩
  | succ fuel ih =>
    intro cands s hi hc hl
    cases cands with
    | nil => exact ⟨hi, fun _ => rfl, fun h => by cases h⟩
    | cons c cs =>
      unfold tryCandidates
      obtain ⟨pos, hpos, hpop⟩ := popRandomlyFrom_ne_nil (lst := c :: cs) (by simp) s.rng
      rw [hpop, Res.bind_ok]
      dsimp only
      generalize hca : (c :: cs)[pos] = cand
      have hcm : Loose s.labels cand r := hc _ (hca ▸ List.getElem_mem hpos)
      apply (hok s.labels s.strat cand r s.rng.next hcm hi.strat).bind
      rintro ⟨b, st', rng'⟩ hcall hP
      have hans : Answered ops P s.labels cand r b :=
        ⟨_, _, _, _, hi.strat, hcall⟩
      dsimp only at hP ⊢
      cases b with
      | true =>
        rw [if_pos rfl]
        rw [if_pos rfl] at hP
        obtain ⟨s', h1, h2, h3, h4, h5⟩ := applyMove_loose adj
          (s := { s with strat := st', rng := rng' }) hi.nbrs hcm
        rw [h1, Res.bind_ok]
        refine ⟨⟨h3, ?_⟩, (fun h => by cases h), (fun _ => ⟨cand, hcm, hans, h2⟩)⟩
        rw [h2, h4]; exact hP
      | false =>
        rw [if_neg (by simp)]
        rw [if_neg (by simp)] at hP
        have hlen : ((c :: cs).eraseIdx pos).length ≤ fuel := by
          rw [List.length_eraseIdx_of_lt hpos]; simp at hl ⊢; omega
        exact ih _ { s with strat := st', rng := rng' } ⟨hi.nbrs, hP⟩
          (fun x hx => hc x (List.mem_of_mem_eraseIdx hx)) hlen

theorem growRegion_loose (hok : LooseOk ops P R T) (r : Int) :
    ∀ (fuel : Nat) (s : AzpState σ k), LooseInv P s → (∃ i, s.labels i = r) →
      (fuel + regionSize s.labels r ≤ k → T) →
      (growRegion ops adj r fuel s).Post R T fun s' =>
        LooseInv P s' ∧ ReflTransGen (LooseMove ops P) s.labels s'.labels := by
  intro fuel
  induction fuel with
  | zero =>
    intro s hi hr hT
    exact hT (by simpa using regionSize_le s.labels r)
  | succ fuel ih =>
    intro s hi hr hT
    unfold growRegion
    obtain ⟨N, hN1, hN2⟩ := hi.nbrs r hr
    have : getNbrs s.nbrs r = .ok N := by unfold getNbrs; rw [hN1]
    rw [this, Res.bind_ok]
    dsimp only
    apply ((tryCandidates_loose hok r _ _ s hi (fun c hc => mem_candidates_loose hr hN2 hc)
      le_rfl)).bind
    rintro ⟨b, s'⟩ _ ⟨hi', hf, ht⟩
    dsimp only at hi' hf ht ⊢
    cases b with
    | false =>
      rw [if_neg (by simp)]
      exact ⟨hi', by rw [hf rfl]⟩
    | true =>
      rw [if_pos rfl]
      obtain ⟨a, ha, hans, hl⟩ := ht rfl
      have hstep : LooseMove ops P s.labels s'.labels := ⟨a, r, ha, hans, hl⟩
      apply (ih s' hi' (by rw [hl, ha.image]; exact hr) ?_).mono id id
      · rintro s'' ⟨h1, h2⟩
        exact ⟨h1, .head hstep h2⟩
      · intro h
        apply hT
        rw [hl, regionSize_moved ha.1] at h
        omega

theorem passRegions_loose (hok : LooseOk ops P R T) (fuel : Nat) (hT : fuel ≤ k → T) :
    ∀ (m : Nat) (regions : List Int) (s : AzpState σ k), LooseInv P s →
      (∀ r ∈ regions, ∃ i, s.labels i = r) → regions.length ≤ m →
      (passRegions ops adj fuel m regions s).Post R T fun s' =>
        LooseInv P s' ∧ ReflTransGen (LooseMove ops P) s.labels s'.labels := by
  intro m
  induction m with
  | zero =>
    intro regions s hi hr hl
    have : regions = [] := by simpa using hl
    subst this
    exact ⟨hi, .refl⟩
  | succ m ih =>
    intro regions s hi hr hl
    cases regions with
    | nil => exact ⟨hi, .refl⟩
    | cons x xs =>
      unfold passRegions
      obtain ⟨pos, hpos, hpop⟩ := popRandomlyFrom_ne_nil (lst := x :: xs) (by simp) s.rng
      rw [hpop, Res.bind_ok]
      dsimp only
      generalize hca : (x :: xs)[pos] = rec
      have hrec : rec ∈ x :: xs := hca ▸ List.getElem_mem hpos
      apply (growRegion_loose hok rec fuel { s with rng := s.rng.next }
        ⟨hi.nbrs, hi.strat⟩ (hr _ hrec) (fun h => hT (by omega))).bind
      rintro s1 _ ⟨hi1, hreach⟩
      have hlen : ((x :: xs).eraseIdx pos).length ≤ m := by
        rw [List.length_eraseIdx_of_lt hpos]; simp at hl ⊢; omega
      apply (ih _ s1 hi1 ?_ hlen).mono id id
      · rintro s2 ⟨hi2, h2⟩
        exact ⟨hi2, ReflTransGen.trans hreach h2⟩
      · intro r' hr'
        exact (looseReach_image hreach r').2 (hr _ (List.mem_of_mem_eraseIdx hr'))

theorem azpOuter_loose (hok : LooseOk ops P R T) (fuel : Nat)
    (init : Labels k) (regions : List Int) (hreg : ∀ r ∈ regions, ∃ i, init i = r)
    (rank : ℚ → Nat) (hg : ¬ T → k < fuel ∧ ∀ L st v, P L st → L ∈ relabelings init →
      ops.objVal st < v → rank (ops.objVal st) < rank v) :
    ∀ (m : Nat) (start : Option ℚ) (stop : ℚ) (s : AzpState σ k), LooseInv P s →
      (∀ r, (∃ i, s.labels i = r) ↔ ∃ i, init i = r) → stop = ops.objVal s.strat →
      (¬ T → improving start stop = true → rank stop < m) →
      (azpOuter ops adj regions fuel m start stop s).Post R T fun s' =>
        LooseInv P s' ∧ ReflTransGen (LooseMove ops P) s.labels s'.labels := by
  intro m
  induction m with
  | zero =>
    intro start stop s hi himg hstop hm
    unfold azpOuter
    by_cases hc : improving start stop = true
    · rw [if_pos hc]
      by_contra hT
      exact absurd (hm hT hc) (by omega)
    · rw [if_neg hc]
      exact ⟨hi, .refl⟩
  | succ m ih =>
    intro start stop s hi himg hstop hm
    unfold azpOuter
    by_cases hc : improving start stop = true
    · rw [if_pos hc]
      dsimp only
      apply (passRegions_loose hok fuel (by
        intro h; by_contra hT; exact absurd (hg hT).1 (by omega)) _ _ s hi
        (fun r hr => (himg r).2 (hreg r hr)) le_rfl).bind
      rintro s1 _ ⟨hi1, hreach⟩
      have himg1 : ∀ r, (∃ i, s1.labels i = r) ↔ ∃ i, init i = r := fun r =>
        (looseReach_image hreach r).trans (himg r)
      apply (ih (some stop) (ops.objVal s1.strat) s1 hi1 himg1 rfl ?_).mono id id
      · rintro s2 ⟨hi2, hr2⟩
        exact ⟨hi2, hreach.trans hr2⟩
      · intro hT hc1
        have h1 := hm hT hc
        have h2 := (hg hT).2 _ _ stop hi1.strat (mem_relabelings.2 fun v => (himg1 _).1 ⟨v, rfl⟩)
          (by simpa [improving] using hc1)
        omega
    · rw [if_neg hc]
      exact ⟨hi, .refl⟩

/-- The routine for one component on any matrix, from any start, for any measure that decreases when the
value gets smaller. -/
theorem azpComponent_looseRanked (hok : LooseOk ops P R T) (fuel : Nat)
    (init : Labels k) (hk : 0 < k) (st : σ) (hP : P init st) (rank : ℚ → Nat)
    (hg : ¬ T → k < fuel ∧ rank (ops.objVal st) < fuel ∧ ∀ L st v, P L st → L ∈ relabelings init →
      ops.objVal st < v → rank (ops.objVal st) < rank v)
    (rng : Rng) :
    (azpComponent ops adj fuel init st rng).Post R T fun q =>
      P q.1 q.2.1 ∧ ReflTransGen (LooseMove ops P) init q.1 := by
  unfold azpComponent
  dsimp only
  rw [length_unique_labels]
  by_cases h1 : numRegions init = 1
  · rw [if_pos h1]
    exact ⟨hP, .refl⟩
  · have h0 : uniqueSorted (arrayList init) ≠ [] := by
      intro h
      have : init ⟨0, hk⟩ ∈ uniqueSorted (arrayList init) := by
        rw [mem_uniqueSorted, mem_arrayList]; exact ⟨_, rfl⟩
      rw [h] at this; cases this
    rw [if_neg h1, if_neg h0]
    apply (azpOuter_loose hok fuel init _ (fun r hr => by
      rwa [mem_uniqueSorted, mem_arrayList] at hr) rank
      (fun hT => ⟨(hg hT).1, (hg hT).2.2⟩) fuel none (ops.objVal st)
      ⟨init, initNbrs adj init (uniqueSorted (arrayList init)), st, rng⟩
      ⟨(initNbrs_ok adj init).loose, hP⟩ (fun _ => Iff.rfl) rfl ?_).bind
    · rintro s _ ⟨hi, hr⟩
      exact ⟨hi.strat, hr⟩
    · intro hT _
      exact (hg hT).2.1

theorem azpComponent_loose (hok : LooseOk ops P R T) (fuel : Nat)
    (init : Labels k) (hk : 0 < k) (st : σ) (hP : P init st)
    (g : Labels k → ℚ)
    (hg : ¬ T → k + numRegions init ^ k < fuel ∧ ∀ L st, P L st → ops.objVal st = g L)
    (rng : Rng) :
    (azpComponent ops adj fuel init st rng).Post R T fun q =>
      P q.1 q.2.1 ∧ ReflTransGen (LooseMove ops P) init q.1 :=
  azpComponent_looseRanked hok fuel init hk st hP (better init g) (fun hT => by
    have h1 := better_le init g (ops.objVal st)
    have h2 := (hg hT).1
    refine ⟨by omega, by omega, fun L st v hP hL hlt => ?_⟩
    have h := (hg hT).2 L st hP
    rw [h] at hlt ⊢
    exact better_lt hlt hL) rng

end Loops

/-- The library's strategies meet these assumptions. -/
theorem Strat.looseOk {n q k : Nat} {ρ : Type} (expf : ℚ → ℚ) (idx : Fin k → Fin n)
    (attr : Fin k → ρ) {obj : Objective ρ} (he : obj.Exact) (ht : obj.Total) (v0 : ℚ) (b : Bool) :
    LooseOk (Strat.ops (q := q) expf idx attr obj)
      (fun labels st => st.Tracks (fun l => obj.call l attr) v0 labels ∧ st.isMaxp = b)
      False False := by
  intro labels st a r rng hm hP
  obtain ⟨_, hu, hb⟩ := hm
  obtain ⟨d, hd⟩ := ht a r labels attr hu hb
  apply (Strat.call_post expf idx attr he v0 hd st rng hP.1).mono id id
  rintro p ⟨h1, h2⟩
  exact ⟨h1, h2.trans hP.2⟩

/-- What is left of `FitOk` if the regions of the components need not be contiguous. -/
theorem fitLoose_of_image {n : Nat} {adj : Adj n} {lab L' : Labels n} (hc : AllContiguous adj lab)
    (h1 : ∀ v, lab v = -1 → L' v = -1)
    (h2 : ∀ c, c < nComponents adj → ∀ x,
      (∃ i, L' ((shown (compArray adj lab c)).get i) = x) ↔
        ∃ i, lab ((shown (compArray adj lab c)).get i) = x) :
    (∀ x, (∃ i, L' i = x) ↔ ∃ i, lab i = x) ∧ (∀ v, ∃ u, SameIsland adj u v ∧ lab u = L' v) ∧
      (∀ v, L' v = -1 ↔ lab v = -1) ∧ ∀ u v, L' u = L' v → lab u ≠ -1 → SameIsland adj u v := by
  have hmem : ∀ c x, x ∈ shown (compArray adj lab c) ↔ compLabels adj x = c ∧ lab x ≠ -1 := by
    intro c x; rw [mem_shown, compArray_ne]
  have hfrom : ∀ v, lab v ≠ -1 → ∃ u, compLabels adj u = compLabels adj v ∧ lab u ≠ -1 ∧
      lab u = L' v := by
    intro v hv
    obtain ⟨i, hi⟩ := List.get_of_mem ((hmem (compLabels adj v) v).2 ⟨rfl, hv⟩)
    obtain ⟨j, hj⟩ := (h2 _ (compLabels_lt adj v) (L' v)).1 ⟨i, by rw [hi]⟩
    have := (hmem _ _).1 (List.get_mem (shown (compArray adj lab (compLabels adj v))) j)
    exact ⟨_, this.1, this.2, hj⟩
  have hto : ∀ v, lab v ≠ -1 → ∃ u, L' u = lab v := by
    intro v hv
    obtain ⟨i, hi⟩ := List.get_of_mem ((hmem (compLabels adj v) v).2 ⟨rfl, hv⟩)
    obtain ⟨j, hj⟩ := (h2 _ (compLabels_lt adj v) (lab v)).2 ⟨i, by rw [hi]⟩
    exact ⟨_, hj⟩
  have hfr : ∀ v, L' v = -1 ↔ lab v = -1 := by
    intro v
    refine ⟨fun h => ?_, h1 v⟩
    by_contra hv
    obtain ⟨u, _, h3, h4⟩ := hfrom v hv
    exact h3 (h4.trans h)
  refine ⟨?_, ?_, hfr, ?_⟩
  · intro x
    constructor
    · rintro ⟨v, rfl⟩
      by_cases hv : lab v = -1
      · exact ⟨v, by rw [hv, h1 v hv]⟩
      · obtain ⟨u, _, _, h⟩ := hfrom v hv
        exact ⟨u, h⟩
    · rintro ⟨v, rfl⟩
      by_cases hv : lab v = -1
      · exact ⟨v, by rw [hv, h1 v hv]⟩
      · exact hto v hv
  · intro v
    by_cases hv : lab v = -1
    · exact ⟨v, .refl, by rw [hv, h1 v hv]⟩
    · obtain ⟨u, hu1, _, hu3⟩ := hfrom v hv
      exact ⟨u, (compLabels_eq_iff adj _ _).1 hu1, hu3⟩
  · intro u v huv hu
    have hv : lab v ≠ -1 := by rw [Ne, ← hfr, ← huv, hfr]; exact hu
    obtain ⟨a, ha1, ha2, ha3⟩ := hfrom u hu
    obtain ⟨b, hb1, hb2, hb3⟩ := hfrom v hv
    have hab : lab b = lab a := by rw [ha3, hb3, huv]
    have hp := pathIn_sameIsland ((hc a).2 a rfl b hab)
    rw [← compLabels_eq_iff, ha1, hb1] at hp
    exact (compLabels_eq_iff adj _ _).1 hp

end Region
