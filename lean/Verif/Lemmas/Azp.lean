import Mathlib.Data.Fintype.Pi
import Mathlib.Data.Fintype.BigOperators
import Verif.Model.Azp
import Verif.Lemmas.Res
import Verif.Lemmas.Objective
/-
Lemmas about the AZP local search on one connected component.
-/
namespace Region

open Spec Relation

/-! ### Moves on the level of the specification -/

theorem moved_self {V L : Type} [DecidableEq V] (labels : V → L) (a : V) (r : L) :
    moved labels a r a = r := by simp [moved]

theorem moved_of_ne {V L : Type} [DecidableEq V] {labels : V → L} {a v : V} {r : L} (h : v ≠ a) :
    moved labels a r v = labels v := by simp [moved, h]

theorem moved_contiguous {V L : Type} [DecidableEq V] {adj : V → V → Bool} {labels : V → L} {a : V}
    {r : L} (hc : AllContiguous adj labels) (hm : Admissible adj labels a r) :
    AllContiguous adj (moved labels a r) := by
  obtain ⟨hne, ⟨u, hu, hua⟩, _, hd⟩ := hm
  have hau : u ≠ a := by rintro rfl; exact hne hu
  intro v
  by_cases hvr : moved labels a r v = r
  · -- the recipient
    rw [hvr]
    have hset : regionOf labels r ⊆ regionOf (moved labels a r) r := by
      intro x hx
      have hx' : labels x = r := hx
      have : x ≠ a := by rintro rfl; exact hne hx'
      change moved labels a r x = r
      rw [moved_of_ne this]; exact hx'
    have hcr : Contiguous adj (regionOf labels r) := hu ▸ hc u
    have hto : ∀ x ∈ regionOf (moved labels a r) r,
        PathIn adj (regionOf (moved labels a r) r) x u := by
      intro x hx
      by_cases hxa : x = a
      · subst hxa
        exact .single ⟨hx, hset hu, borders_symm hua⟩
      · have hx' : labels x = r := by
          have : moved labels a r x = r := hx
          rwa [moved_of_ne hxa] at this
        exact pathIn_mono hset (hcr.2 x hx' u hu)
    refine ⟨⟨u, hset hu⟩, fun x hx y hy => (hto x hx).trans (pathIn_symm (hto y hy))⟩
  · have hva : v ≠ a := by rintro rfl; exact hvr (moved_self _ _ _)
    by_cases hvd : labels v = labels a
    · have : regionOf (moved labels a r) (moved labels a r v) =
          {x | labels x = labels a ∧ x ≠ a} := by
        ext x
        rw [moved_of_ne hva, hvd]
        change moved labels a r x = labels a ↔ labels x = labels a ∧ x ≠ a
        by_cases hxa : x = a
        · subst hxa; rw [moved_self]; simp [Ne.symm hne]
        · rw [moved_of_ne hxa]; simp [hxa]
      rw [this]; exact hd
    · have : regionOf (moved labels a r) (moved labels a r v) = regionOf labels (labels v) := by
        rw [moved_of_ne hva] at hvr ⊢
        ext x
        change moved labels a r x = labels v ↔ labels x = labels v
        by_cases hxa : x = a
        · subst hxa; rw [moved_self]
          exact ⟨fun h => absurd h.symm hvr, fun h => absurd h.symm hvd⟩
        · rw [moved_of_ne hxa]
      rw [this]; exact hc v

theorem moved_image {V L : Type} [DecidableEq V] {adj : V → V → Bool} {labels : V → L} {a : V}
    {r : L} (hm : Admissible adj labels a r) (x : L) :
    (∃ i, moved labels a r i = x) ↔ ∃ i, labels i = x := by
  obtain ⟨hne, ⟨u, hu, hua⟩, ⟨b, hb, hba⟩, _⟩ := hm
  constructor
  · rintro ⟨i, rfl⟩
    by_cases hi : i = a
    · exact ⟨u, by rw [hi, moved_self, hu]⟩
    · exact ⟨i, (moved_of_ne hi).symm⟩
  · rintro ⟨i, rfl⟩
    by_cases hi : i = a
    · exact ⟨b, by rw [hi, moved_of_ne hb, hba]⟩
    · exact ⟨i, moved_of_ne hi⟩

/-- In a contiguous set with another element, every element has a neighbor in the set. -/
theorem exists_neighbor {V : Type} {adj : V → V → Bool} {S : Set V} {a b : V}
    (h : PathIn adj S a b) (hab : b ≠ a) : ∃ u ∈ S, u ≠ a ∧ Borders adj a u := by
  induction h with
  | refl => exact absurd rfl hab
  | @tail x y _ hxy ih =>
    by_cases hx : x = a
    · subst hx; exact ⟨y, hxy.2.1, hab, hxy.2.2⟩
    · exact ih hx

theorem borders_iff {n : Nat} {adj : Adj n} (hs : Symmetric adj) {a b : Fin n} :
    Borders adj a b ↔ adj a b = true := by
  unfold Borders; rw [hs b a]; simp

/-! ### The invariant -/

/-- The dict `region_neighbors` is right: its keys are the regions in use, and the value under `r` is
the set of areas outside `r` bordering `r`. -/
def NbrsOk {k : Nat} (adj : Adj k) (labels : Labels k) (nbrs : Int → Option (Fin k → Bool)) : Prop :=
  ∀ r, (∃ i, labels i = r) → ∃ N, nbrs r = some N ∧
    ∀ v, N v = true ↔ labels v ≠ r ∧ ∃ u, labels u = r ∧ adj u v = true

theorem initNbrs_ok {k : Nat} (adj : Adj k) (labels : Labels k) :
    NbrsOk adj labels (initNbrs adj labels (uniqueSorted (arrayList labels))) := by
  intro r hr
  refine ⟨_, if_pos ?_, ?_⟩
  · rw [List.contains_iff_mem, mem_uniqueSorted, mem_arrayList]; exact hr
  · intro v
    simp only [Bool.and_eq_true, List.any_eq_true, List.contains_iff_mem, mem_whereEq,
      mem_neighbors, Bool.not_eq_true', ← Bool.not_eq_true]
    tauto

theorem mem_candidates {k : Nat} {adj : Adj k} (hs : Symmetric adj) {labels : Labels k} {r : Int}
    {N : Fin k → Bool} (hN : ∀ v, N v = true ↔ labels v ≠ r ∧ ∃ u, labels u = r ∧ adj u v = true)
    {a : Fin k} : a ∈ candidates adj labels N ↔ Admissible adj labels a r := by
  unfold candidates Admissible
  simp only [List.mem_filter, List.mem_finRange, true_and, Bool.and_eq_true, hN, gt_iff_lt,
    isConnected_subAdjWo, decide_eq_true_eq, one_lt_count_iff, borders_iff hs]
  tauto

theorem candidates_nodup {k : Nat} (adj : Adj k) (labels : Labels k) (N : Fin k → Bool) :
    (candidates adj labels N).Nodup :=
  ((List.nodup_finRange k).filter _).filter _

theorem applyMove_spec {σ : Type} {k : Nat} {adj : Adj k} (hs : Symmetric adj) {s : AzpState σ k}
    (hN : NbrsOk adj s.labels s.nbrs) (hc : AllContiguous adj s.labels) {a : Fin k} {r : Int}
    (hm : Admissible adj s.labels a r) :
    ∃ s', applyMove adj r a s = .ok s' ∧ s'.labels = moved s.labels a r ∧
      NbrsOk adj s'.labels s'.nbrs ∧ s'.strat = s.strat ∧ s'.rng = s.rng := by
  have himg := moved_image hm
  obtain ⟨hne, ⟨u, hu, hua⟩, ⟨b, hb, hba⟩, hd⟩ := hm
  obtain ⟨ND, hND1, hND2⟩ := hN (s.labels a) ⟨a, rfl⟩
  obtain ⟨NR, hNR1, hNR2⟩ := hN r ⟨u, hu⟩
  unfold applyMove modNbrs
  simp only [hND1, hNR1, Res.bind_ok, hne, Ne.symm hne, if_true, if_false, makeMove_eq_moved]
  refine ⟨_, rfl, rfl, ?_, rfl, rfl⟩
  intro x hx
  rw [himg] at hx
  dsimp only
  by_cases hxD : x = s.labels a
  · subst hxD
    rw [if_pos rfl]
    refine ⟨_, rfl, ?_⟩
    intro v
    simp only [Bool.and_eq_true, Bool.or_eq_true, hND2, decide_eq_true_eq, Bool.not_eq_true',
      ← Bool.not_eq_true, List.contains_iff_mem, List.mem_filter, mem_neighbors,
      List.any_eq_true, mem_whereEq]
    by_cases hva : v = a
    · subst hva
      obtain ⟨w, hw1, hw2, hw3⟩ := exists_neighbor ((hc v).2 v rfl b hba) hb
      rw [borders_iff hs] at hw3
      have hw1 : s.labels w = s.labels v := hw1
      have hmw : moved s.labels v r w = s.labels v := by rw [moved_of_ne hw2, hw1]
      rw [moved_self]
      constructor
      · intro _
        exact ⟨Ne.symm hne, w, hmw, by rw [hs]; exact hw3⟩
      · intro _
        refine ⟨.inr rfl, ?_⟩
        rintro ⟨_, h⟩
        exact h ⟨w, hw3, hmw⟩
    · rw [moved_of_ne hva]
      constructor
      · rintro ⟨(⟨h1, w, hw, hwv⟩ | h), h2⟩
        · refine ⟨h1, ?_⟩
          by_cases hwa : w = a
          · subst hwa
            have : ∃ x, adj v x = true ∧ moved s.labels w r x = s.labels w := by
              by_contra hcon
              exact h2 ⟨hwv, hcon⟩
            obtain ⟨x, hx1, hx2⟩ := this
            exact ⟨x, hx2, by rw [hs]; exact hx1⟩
          · exact ⟨w, by rw [moved_of_ne hwa, hw], hwv⟩
        · exact absurd h hva
      · rintro ⟨h1, w, hw, hwv⟩
        have hwa : w ≠ a := by rintro rfl; rw [moved_self] at hw; exact hne hw.symm
        refine ⟨.inl ⟨h1, w, by rw [moved_of_ne hwa] at hw; exact hw, hwv⟩, ?_⟩
        rintro ⟨_, h⟩
        exact h ⟨w, by rw [hs]; exact hwv, hw⟩
  · rw [if_neg hxD]
    by_cases hxR : x = r
    · subst hxR
      rw [if_pos rfl]
      refine ⟨_, rfl, ?_⟩
      intro v
      simp only [Bool.and_eq_true, Bool.or_eq_true, hNR2, decide_eq_true_eq, Bool.not_eq_true',
        ← Bool.not_eq_true, List.contains_iff_mem, mem_neighbors, mem_whereEq]
      by_cases hva : v = a
      · subst hva; simp [moved_self]
      · rw [moved_of_ne hva]
        constructor
        · rintro ⟨(⟨⟨h1, w, hw, hwv⟩, _⟩ | h), h2⟩
          · refine ⟨h2, w, ?_, hwv⟩
            rw [moved_of_ne (by rintro rfl; exact hne hw), hw]
          · exact ⟨h2, a, moved_self _ _ _, h⟩
        · rintro ⟨h1, w, hw, hwv⟩
          refine ⟨?_, h1⟩
          by_cases hwa : w = a
          · subst hwa; exact .inr hwv
          · rw [moved_of_ne hwa] at hw
            exact .inl ⟨⟨h1, w, hw, hwv⟩, hva⟩
    · rw [if_neg hxR, if_neg hxR, if_neg hxD]
      obtain ⟨N, hN1, hN2⟩ := hN x hx
      refine ⟨N, hN1, ?_⟩
      intro v
      rw [hN2]
      have e1 : ∀ w, moved s.labels a r w = x ↔ s.labels w = x := by
        intro w
        by_cases hwa : w = a
        · subst hwa; rw [moved_self]
          exact ⟨fun h => absurd h.symm hxR, fun h => absurd h.symm hxD⟩
        · rw [moved_of_ne hwa]
      simp only [ne_eq, e1]

/-! ### The loops, for an arbitrary strategy -/

section Loops
variable {σ : Type} {k : Nat} (ops : StratOps σ k) (adj : Adj k) (P : Labels k → σ → Prop)

/-- What is assumed of a strategy: asked about an admissible move in a state satisfying `P`, it
answers (raising only if `R`, running forever only if `T`) and `P` holds again, after the move if it
was allowed. -/
def StratOk (R T : Prop) : Prop :=
  ∀ labels st a r rng, AllContiguous adj labels → Admissible adj labels a r → P labels st →
    (ops.call st a r labels rng).Post R T fun q =>
      P (if q.1 then moved labels a r else labels) q.2.1

/-- The strategy gave the answer `b` about moving `a` to `r`. -/
def Answered (labels : Labels k) (a : Fin k) (r : Int) (b : Bool) : Prop :=
  ∃ st rng st' rng', P labels st ∧ ops.call st a r labels rng = .ok (b, st', rng')

/-- One admissible move allowed by the strategy. -/
def AllowedMove (labels labels' : Labels k) : Prop :=
  ∃ a r, Admissible adj labels a r ∧ Answered ops P labels a r true ∧ labels' = moved labels a r

/-- All admissible moves into region `r` are refused by the strategy. -/
def AllRefused (labels : Labels k) (r : Int) : Prop :=
  ∀ a, Admissible adj labels a r → Answered ops P labels a r false

/-- State invariant. -/
structure Inv (s : AzpState σ k) : Prop where
  nbrs : NbrsOk adj s.labels s.nbrs
  contiguous : AllContiguous adj s.labels
  strat : P s.labels s.strat

variable {ops adj P} {R T : Prop}

theorem allowedMove_image {labels labels' : Labels k} (h : AllowedMove ops adj P labels labels')
    (x : Int) : (∃ i, labels' i = x) ↔ ∃ i, labels i = x := by
  obtain ⟨a, r, hm, _, rfl⟩ := h
  exact moved_image hm x

theorem allowedMove_contiguous {labels labels' : Labels k}
    (h : AllowedMove ops adj P labels labels') (hc : AllContiguous adj labels) :
    AllContiguous adj labels' := by
  obtain ⟨a, r, hm, _, rfl⟩ := h
  exact moved_contiguous hc hm

theorem reach_image {labels labels' : Labels k}
    (h : ReflTransGen (AllowedMove ops adj P) labels labels') (x : Int) :
    (∃ i, labels' i = x) ↔ ∃ i, labels i = x := by
  induction h with
  | refl => rfl
  | tail _ h1 ih => rw [allowedMove_image h1, ih]

theorem tryCandidates_post (hs : Symmetric adj) (hok : StratOk ops adj P R T) (r : Int) :
    ∀ (fuel : Nat) (cands : List (Fin k)) (s : AzpState σ k), Inv adj P s →
      (∀ c ∈ cands, Admissible adj s.labels c r) → cands.length ≤ fuel →
      (tryCandidates ops adj r fuel cands s).Post R T fun q =>
        Inv adj P q.2 ∧
        (q.1 = false → q.2.labels = s.labels ∧
          ∀ c ∈ cands, Answered ops P s.labels c r false) ∧
        (q.1 = true → ∃ a, Admissible adj s.labels a r ∧ Answered ops P s.labels a r true ∧
          q.2.labels = moved s.labels a r) := by
  intro fuel
  induction fuel with
  | zero =>
    intro cands s hi hc hl
    have : cands = [] := by simpa using hl
    subst this
    exact ⟨hi, fun _ => ⟨rfl, by simp⟩, fun h => by cases h⟩
  | succ fuel ih =>
    intro cands s hi hc hl
    cases cands with
    | nil => exact ⟨hi, fun _ => ⟨rfl, by simp⟩, fun h => by cases h⟩
    | cons c cs =>
      unfold tryCandidates
      obtain ⟨pos, hpos, hpop⟩ := popRandomlyFrom_ne_nil (lst := c :: cs) (by simp) s.rng
      rw [hpop, Res.bind_ok]
      dsimp only
      generalize hca : (c :: cs)[pos] = cand
      have hcm : Admissible adj s.labels cand r := hc _ (hca ▸ List.getElem_mem hpos)
      apply (hok s.labels s.strat cand r s.rng.next hi.contiguous hcm hi.strat).bind
      rintro ⟨b, st', rng'⟩ hcall hP
      have hans : Answered ops P s.labels cand r b :=
        ⟨_, _, _, _, hi.strat, hcall⟩
      dsimp only at hP ⊢
      cases b with
      | true =>
        rw [if_pos rfl]
        rw [if_pos rfl] at hP
        obtain ⟨s', h1, h2, h3, h4, h5⟩ := applyMove_spec (s := { s with strat := st', rng := rng' })
          hs hi.nbrs hi.contiguous hcm
        rw [h1, Res.bind_ok]
        refine ⟨⟨h3, ?_, ?_⟩, (fun h => by cases h), (fun _ => ⟨cand, hcm, hans, h2⟩)⟩
        · rw [h2]; exact moved_contiguous hi.contiguous hcm
        · rw [h2, h4]; exact hP
      | false =>
        rw [if_neg (by simp)]
        rw [if_neg (by simp)] at hP
        have hlen : ((c :: cs).eraseIdx pos).length ≤ fuel := by
          rw [List.length_eraseIdx_of_lt hpos]; simp at hl ⊢; omega
        apply (ih _ { s with strat := st', rng := rng' } ⟨hi.nbrs, hi.contiguous, hP⟩
          (fun x hx => hc x (List.mem_of_mem_eraseIdx hx)) hlen).mono id id
        rintro ⟨b, s'⟩ ⟨h1, h2, h3⟩
        refine ⟨h1, ?_, h3⟩
        intro hb
        refine ⟨(h2 hb).1, ?_⟩
        intro x hx
        obtain ⟨j, hj, rfl⟩ := List.mem_iff_getElem.1 hx
        by_cases hjp : j = pos
        · subst hjp; rw [hca]; exact hans
        · exact (h2 hb).2 _ (List.mem_eraseIdx_iff_getElem.2 ⟨j, hj, hjp, rfl⟩)

/-- The number of areas of a region. -/
def regionSize (labels : Labels k) (r : Int) : Nat :=
  (Finset.univ.filter fun i => labels i = r).card

theorem regionSize_moved {labels : Labels k} {a : Fin k} {r : Int} (h : labels a ≠ r) :
    regionSize (moved labels a r) r = regionSize labels r + 1 := by
  unfold regionSize
  have : (Finset.univ.filter fun i => moved labels a r i = r) =
      insert a (Finset.univ.filter fun i => labels i = r) := by
    ext i
    simp only [Finset.mem_filter, Finset.mem_univ, true_and, Finset.mem_insert]
    by_cases hi : i = a
    · simp [hi, moved_self]
    · simp [hi, moved_of_ne hi]
  rw [this, Finset.card_insert_of_notMem (by simp [h])]

theorem regionSize_le (labels : Labels k) (r : Int) : regionSize labels r ≤ k := by
  unfold regionSize
  calc _ ≤ (Finset.univ : Finset (Fin k)).card := Finset.card_filter_le _ _
    _ = k := by simp

theorem growRegion_post (hs : Symmetric adj) (hok : StratOk ops adj P R T) (r : Int) :
    ∀ (fuel : Nat) (s : AzpState σ k), Inv adj P s → (∃ i, s.labels i = r) →
      (fuel + regionSize s.labels r ≤ k → T) →
      (growRegion ops adj r fuel s).Post R T fun s' =>
        Inv adj P s' ∧ AllRefused ops adj P s'.labels r ∧
        (s'.labels = s.labels ∨ TransGen (AllowedMove ops adj P) s.labels s'.labels) := by
  intro fuel
  induction fuel with
  | zero =>
    intro s hi hr hT
    exact hT (by simpa using regionSize_le s.labels r)
  | succ fuel ih =>
    intro s hi hr hT
    unfold growRegion
    obtain ⟨N, hN1, hN2⟩ := hi.nbrs r hr
    have : getNbrs s.nbrs r = .ok N := by unfold getNbrs; rw [hN1]
    rw [this, Res.bind_ok]
    dsimp only
    have hcand : ∀ c, c ∈ candidates adj s.labels N ↔ Admissible adj s.labels c r :=
      fun c => mem_candidates hs hN2
    apply ((tryCandidates_post hs hok r _ _ s hi (fun c hc => (hcand c).1 hc)
      le_rfl)).bind
    rintro ⟨b, s'⟩ _ ⟨hi', hf, ht⟩
    dsimp only at hi' hf ht ⊢
    cases b with
    | false =>
      rw [if_neg (by simp)]
      obtain ⟨h1, h2⟩ := hf rfl
      refine ⟨hi', ?_, .inl h1⟩
      intro a ha
      rw [h1] at ha ⊢
      exact h2 a ((hcand a).2 ha)
    | true =>
      rw [if_pos rfl]
      obtain ⟨a, ha, hans, hl⟩ := ht rfl
      have hstep : AllowedMove ops adj P s.labels s'.labels := ⟨a, r, ha, hans, hl⟩
      apply (ih s' hi' ((allowedMove_image hstep r).2 hr) ?_).mono id id
      · rintro s'' ⟨h1, h2, h3⟩
        refine ⟨h1, h2, .inr ?_⟩
        rcases h3 with h3 | h3
        · rw [h3]; exact .single hstep
        · exact .head hstep h3
      · intro h
        apply hT
        rw [hl, regionSize_moved ha.1] at h
        omega

/-- What one pass over the regions achieves. -/
def PassPost (ops : StratOps σ k) (adj : Adj k) (P : Labels k → σ → Prop) (regions : List Int)
    (labels labels' : Labels k) : Prop :=
  (regions = [] → labels' = labels) ∧
  (regions ≠ [] → ∃ r ∈ regions, AllRefused ops adj P labels' r) ∧
  ((labels' = labels ∧ ∀ r ∈ regions, AllRefused ops adj P labels r) ∨
    TransGen (AllowedMove ops adj P) labels labels')

theorem PassPost.reach {regions : List Int} {labels labels' : Labels k}
    (h : PassPost ops adj P regions labels labels') :
    ReflTransGen (AllowedMove ops adj P) labels labels' := by
  rcases h.2.2 with ⟨h, _⟩ | h
  · rw [h]
  · exact h.to_reflTransGen

theorem passRegions_post (hs : Symmetric adj) (hok : StratOk ops adj P R T) (fuel : Nat)
    (hT : fuel ≤ k → T) :
    ∀ (m : Nat) (regions : List Int) (s : AzpState σ k), Inv adj P s →
      (∀ r ∈ regions, ∃ i, s.labels i = r) → regions.length ≤ m →
      (passRegions ops adj fuel m regions s).Post R T fun s' =>
        Inv adj P s' ∧ PassPost ops adj P regions s.labels s'.labels := by
  intro m
  induction m with
  | zero =>
    intro regions s hi hr hl
    have : regions = [] := by simpa using hl
    subst this
    exact ⟨hi, fun _ => rfl, fun h => absurd rfl h, .inl ⟨rfl, by simp⟩⟩
  | succ m ih =>
    intro regions s hi hr hl
    cases regions with
    | nil => exact ⟨hi, fun _ => rfl, fun h => absurd rfl h, .inl ⟨rfl, by simp⟩⟩
    | cons x xs =>
      unfold passRegions
      obtain ⟨pos, hpos, hpop⟩ := popRandomlyFrom_ne_nil (lst := x :: xs) (by simp) s.rng
      rw [hpop, Res.bind_ok]
      dsimp only
      generalize hca : (x :: xs)[pos] = rec
      have hrec : rec ∈ x :: xs := hca ▸ List.getElem_mem hpos
      apply (growRegion_post hs hok rec fuel { s with rng := s.rng.next }
        ⟨hi.nbrs, hi.contiguous, hi.strat⟩ (hr _ hrec) (fun h => hT (by omega))).bind
      rintro s1 _ ⟨hi1, href, hstep⟩
      have hreach : ReflTransGen (AllowedMove ops adj P) s.labels s1.labels := by
        rcases hstep with h | h
        · rw [h]
        · exact h.to_reflTransGen
      have hlen : ((x :: xs).eraseIdx pos).length ≤ m := by
        rw [List.length_eraseIdx_of_lt hpos]; simp at hl ⊢; omega
      apply (ih _ s1 hi1 ?_ hlen).mono id id
      · rintro s2 ⟨hi2, hnone, hlast, hall⟩
        refine ⟨hi2, (fun h => by cases h), ?_, ?_⟩
        · intro _
          by_cases hne : (x :: xs).eraseIdx pos = []
          · refine ⟨rec, hrec, ?_⟩
            have : s2.labels = s1.labels := hnone hne
            rw [this]; exact href
          · obtain ⟨r', hr', h⟩ := hlast hne
            exact ⟨r', List.mem_of_mem_eraseIdx hr', h⟩
        · rcases hall with ⟨h1, h2⟩ | h
          · rcases hstep with h | h
            · left
              refine ⟨h1.trans h, ?_⟩
              intro r' hr'
              obtain ⟨j, hj, rfl⟩ := List.mem_iff_getElem.1 hr'
              by_cases hjp : j = pos
              · subst hjp; rw [hca, ← show s1.labels = s.labels from h]; exact href
              · have := h2 _ (List.mem_eraseIdx_iff_getElem.2 ⟨j, hj, hjp, rfl⟩)
                rwa [show s1.labels = s.labels from h] at this
            · right; rw [h1]; exact h
          · right
            exact TransGen.trans_right hreach h
      · intro r' hr'
        exact (reach_image hreach r').2 (hr _ (List.mem_of_mem_eraseIdx hr'))

/-- The labelings using only labels of `init`. -/
def relabelings (init : Labels k) : Finset (Labels k) :=
  Fintype.piFinset fun _ => Finset.univ.image init

theorem mem_relabelings {init labels : Labels k} :
    labels ∈ relabelings init ↔ ∀ v, ∃ i, init i = labels v := by
  simp [relabelings, Fintype.mem_piFinset]

theorem card_relabelings (init : Labels k) :
    (relabelings init).card = numRegions init ^ k := by
  simp [relabelings, Fintype.card_piFinset, numRegions]

/-- Number of labelings that are better than `v`. -/
def better (init : Labels k) (g : Labels k → ℚ) (v : ℚ) : Nat :=
  ((relabelings init).filter fun l => g l < v).card

theorem better_le (init : Labels k) (g : Labels k → ℚ) (v : ℚ) :
    better init g v ≤ numRegions init ^ k := by
  rw [← card_relabelings]; exact Finset.card_filter_le _ _

theorem better_lt {init : Labels k} {g : Labels k → ℚ} {labels : Labels k} {v : ℚ}
    (h : g labels < v) (hl : labels ∈ relabelings init) :
    better init g (g labels) < better init g v := by
  apply Finset.card_lt_card
  rw [Finset.ssubset_iff_of_subset]
  · exact ⟨labels, by simp [hl, h], by simp⟩
  · intro x hx
    simp only [Finset.mem_filter] at hx ⊢
    exact ⟨hx.1, hx.2.trans h⟩

/-- The state in which the search stops: a last pass brought no improvement. -/
def Stopped (ops : StratOps σ k) (adj : Adj k) (P : Labels k → σ → Prop) (regions : List Int)
    (labels : Labels k) (s' : AzpState σ k) : Prop :=
  ∃ L0 st0, P L0 st0 ∧ ReflTransGen (AllowedMove ops adj P) labels L0 ∧
    PassPost ops adj P regions L0 s'.labels ∧ ¬ ops.objVal s'.strat < ops.objVal st0

/-- The outer loop, for any measure that decreases when the value gets smaller. -/
theorem azpOuter_ranked (hs : Symmetric adj) (hok : StratOk ops adj P R T) (fuel : Nat)
    (init : Labels k) (regions : List Int) (hreg : ∀ r ∈ regions, ∃ i, init i = r)
    (rank : ℚ → Nat) (hg : ¬ T → k < fuel ∧ ∀ L st v, P L st → L ∈ relabelings init →
      ops.objVal st < v → rank (ops.objVal st) < rank v) :
    ∀ (m : Nat) (start : Option ℚ) (stop : ℚ) (s : AzpState σ k), Inv adj P s →
      (∀ r, (∃ i, s.labels i = r) ↔ ∃ i, init i = r) → stop = ops.objVal s.strat →
      (¬ T → improving start stop = true → rank stop < m) →
      (azpOuter ops adj regions fuel m start stop s).Post R T fun s' =>
        Inv adj P s' ∧ ReflTransGen (AllowedMove ops adj P) s.labels s'.labels ∧
        (improving start stop = false → s' = s) ∧
        (improving start stop = true → Stopped ops adj P regions s.labels s') := by
  intro m
  induction m with
  | zero =>
    intro start stop s hi himg hstop hm
    unfold azpOuter
    by_cases hc : improving start stop = true
    · rw [if_pos hc]
      by_contra hT
      exact absurd (hm hT hc) (by omega)
    · rw [if_neg hc]
      exact ⟨hi, .refl, fun _ => rfl, fun h => absurd h hc⟩
  | succ m ih =>
    intro start stop s hi himg hstop hm
    unfold azpOuter
    by_cases hc : improving start stop = true
    · rw [if_pos hc]
      dsimp only
      apply (passRegions_post hs hok fuel (by
        intro h; by_contra hT; exact absurd (hg hT).1 (by omega)) _ _ s hi
        (fun r hr => (himg r).2 (hreg r hr)) le_rfl).bind
      rintro s1 _ ⟨hi1, hpass⟩
      have hreach := hpass.reach
      have himg1 : ∀ r, (∃ i, s1.labels i = r) ↔ ∃ i, init i = r := fun r =>
        (reach_image hreach r).trans (himg r)
      apply (ih (some stop) (ops.objVal s1.strat) s1 hi1 himg1 rfl ?_).mono id id
      · rintro s2 ⟨hi2, hr2, hfalse, htrue⟩
        refine ⟨hi2, hreach.trans hr2, fun h => absurd hc (by simp [h]), fun _ => ?_⟩
        by_cases hc1 : improving (some stop) (ops.objVal s1.strat) = true
        · obtain ⟨L0, st0, h1, h2, h3, h4⟩ := htrue hc1
          exact ⟨L0, st0, h1, hreach.trans h2, h3, h4⟩
        · have he := hfalse (by simpa using hc1)
          subst he
          refine ⟨s.labels, s.strat, hi.strat, .refl, hpass, ?_⟩
          rw [← hstop]
          simpa [improving] using hc1
      · intro hT hc1
        have h1 := hm hT hc
        have h2 := (hg hT).2 _ _ stop hi1.strat (mem_relabelings.2 fun v => (himg1 _).1 ⟨v, rfl⟩)
          (by simpa [improving] using hc1)
        omega
    · rw [if_neg hc]
      exact ⟨hi, .refl, fun _ => rfl, fun h => absurd h hc⟩

theorem azpOuter_post (hs : Symmetric adj) (hok : StratOk ops adj P R T) (fuel : Nat)
    (init : Labels k) (regions : List Int) (hreg : ∀ r ∈ regions, ∃ i, init i = r)
    (g : Labels k → ℚ) (hg : ¬ T → k < fuel ∧ ∀ L st, P L st → ops.objVal st = g L) :
    ∀ (m : Nat) (start : Option ℚ) (stop : ℚ) (s : AzpState σ k), Inv adj P s →
      (∀ r, (∃ i, s.labels i = r) ↔ ∃ i, init i = r) → stop = ops.objVal s.strat →
      (¬ T → improving start stop = true → better init g stop < m) →
      (azpOuter ops adj regions fuel m start stop s).Post R T fun s' =>
        Inv adj P s' ∧ ReflTransGen (AllowedMove ops adj P) s.labels s'.labels ∧
        (improving start stop = false → s' = s) ∧
        (improving start stop = true → Stopped ops adj P regions s.labels s') :=
  azpOuter_ranked hs hok fuel init regions hreg (better init g) fun hT => ⟨(hg hT).1, by
    intro L st v hP hL hlt
    have h := (hg hT).2 L st hP
    rw [h] at hlt ⊢
    exact better_lt hlt hL⟩

theorem azpComponent_empty (ops : StratOps σ k) (adj : Adj k) (hk : ¬ 0 < k) (fuel : Nat)
    (init : Labels k) (st : σ) (rng : Rng) :
    azpComponent ops adj fuel init st rng = .raise .unboundLocalError := by
  have : k = 0 := by omega
  subst this
  rfl

/-- The routine for one component, for any measure that decreases when the value gets smaller. -/
theorem azpComponent_ranked (hs : Symmetric adj) (hok : StratOk ops adj P R T) (fuel : Nat)
    (init : Labels k) (hk : 0 < k) (hc : AllContiguous adj init) (st : σ) (hP : P init st)
    (rank : ℚ → Nat)
    (hg : ¬ T → k < fuel ∧ rank (ops.objVal st) < fuel ∧ ∀ L st v, P L st → L ∈ relabelings init →
      ops.objVal st < v → rank (ops.objVal st) < rank v)
    (rng : Rng) :
    (azpComponent ops adj fuel init st rng).Post R T fun q =>
      P q.1 q.2.1 ∧ AllContiguous adj q.1 ∧
      ReflTransGen (AllowedMove ops adj P) init q.1 ∧
      (numRegions init ≠ 1 → ∃ L0 st0, P L0 st0 ∧ ReflTransGen (AllowedMove ops adj P) init L0 ∧
        PassPost ops adj P (uniqueSorted (arrayList init)) L0 q.1 ∧
        ¬ ops.objVal q.2.1 < ops.objVal st0) := by
  unfold azpComponent
  dsimp only
  rw [length_unique_labels]
  by_cases h1 : numRegions init = 1
  · rw [if_pos h1]
    exact ⟨hP, hc, .refl, fun h => absurd h1 h⟩
  · have h0 : uniqueSorted (arrayList init) ≠ [] := by
      intro h
      have : init ⟨0, hk⟩ ∈ uniqueSorted (arrayList init) := by
        rw [mem_uniqueSorted, mem_arrayList]; exact ⟨_, rfl⟩
      rw [h] at this; cases this
    rw [if_neg h1, if_neg h0]
    apply (azpOuter_ranked hs hok fuel init _ (fun r hr => by
      rwa [mem_uniqueSorted, mem_arrayList] at hr) rank
      (fun hT => ⟨(hg hT).1, (hg hT).2.2⟩) fuel none (ops.objVal st)
      ⟨init, initNbrs adj init (uniqueSorted (arrayList init)), st, rng⟩
      ⟨initNbrs_ok adj init, hc, hP⟩ (fun _ => Iff.rfl) rfl ?_).bind
    · rintro s _ ⟨hi, hr, _, hst⟩
      exact ⟨hi.strat, hi.contiguous, hr, fun _ => hst rfl⟩
    · intro hT _
      exact (hg hT).2.1

theorem azpComponent_post (hs : Symmetric adj) (hok : StratOk ops adj P R T) (fuel : Nat)
    (init : Labels k) (hk : 0 < k) (hc : AllContiguous adj init) (st : σ) (hP : P init st)
    (g : Labels k → ℚ)
    (hg : ¬ T → k + numRegions init ^ k < fuel ∧ ∀ L st, P L st → ops.objVal st = g L)
    (rng : Rng) :
    (azpComponent ops adj fuel init st rng).Post R T fun q =>
      P q.1 q.2.1 ∧ AllContiguous adj q.1 ∧
      ReflTransGen (AllowedMove ops adj P) init q.1 ∧
      (numRegions init ≠ 1 → ∃ L0 st0, P L0 st0 ∧ ReflTransGen (AllowedMove ops adj P) init L0 ∧
        PassPost ops adj P (uniqueSorted (arrayList init)) L0 q.1 ∧
        ¬ ops.objVal q.2.1 < ops.objVal st0) :=
  azpComponent_ranked hs hok fuel init hk hc st hP (better init g) (fun hT => by
    have h1 := better_le init g (ops.objVal st)
    have h2 := (hg hT).1
    refine ⟨by omega, by omega, fun L st v hP hL hlt => ?_⟩
    have h := (hg hT).2 L st hP
    rw [h] at hlt ⊢
    exact better_lt hlt hL) rng

end Loops

end Region
