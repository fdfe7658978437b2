import Verif.SpecAzp
import Verif.Lemmas.AzpOpt
/-
The automatic zoning procedure with all its possible results.
-/
namespace Region

open Spec Res

/-- A tape with a chosen first draw. -/
def Rng.cons (x : Nat) (r : Rng) : Rng
  | 0 => x
  | i + 1 => r i

theorem Rng.cons_zero (x : Nat) (r : Rng) : Rng.cons x r 0 = x := rfl
theorem Rng.cons_next (x : Nat) (r : Rng) : (Rng.cons x r).next = r := rfl

/-- Every element of a list can be popped. -/
theorem popRandomlyFrom_any {α : Type} (lst : List α) (pos : Nat) (hpos : pos < lst.length) (r : Rng) :
    popRandomlyFrom lst (Rng.cons pos r) = .ok (lst[pos], lst.eraseIdx pos, r) := by
  unfold popRandomlyFrom
  rw [randrange_pos (Nat.zero_lt_of_lt hpos)]
  simp [Rng.cons_zero, Rng.cons_next, Nat.mod_eq_of_lt hpos, hpos]

section
variable {σ : Type} {k : Nat} (ops : StratOps σ k) (adj : Adj k)
  (allowed : Labels k → Fin k → Int → Prop) (M : Labels k → σ → Prop)

/-- The strategy decides by `allowed` alone and draws nothing; `M` relates the labels to the state of the
strategy. -/
structure Decides : Prop where
  yes : ∀ {L : Labels k} {st : σ} {a : Fin k} {r : Int}, AllContiguous adj L →
    Admissible adj L a r → M L st → allowed L a r →
    ∃ st', (∀ rng, ops.call st a r L rng = .ok (true, st', rng)) ∧ M (moved L a r) st'
  no : ∀ {L : Labels k} {st : σ} {a : Fin k} {r : Int}, AllContiguous adj L →
    Admissible adj L a r → M L st → ¬ allowed L a r →
    ∃ st', (∀ rng, ops.call st a r L rng = .ok (false, st', rng)) ∧ M L st'

/-- A state with labels `L`. -/
structure Holds (s : AzpState σ k) (L : Labels k) : Prop where
  labels : s.labels = L
  nbrs : NbrsOk adj s.labels s.nbrs
  contiguous : AllContiguous adj s.labels
  strat : M L s.strat

variable {ops adj allowed M}

theorem Holds.draw {s : AzpState σ k} {L : Labels k} (h : Holds adj M s L) (r : Rng) :
    Holds adj M { s with rng := r } L := ⟨h.labels, h.nbrs, h.contiguous, h.strat⟩

theorem applyMove_rng (r : Int) (a : Fin k) (s s' : AzpState σ k) (rng : Rng)
    (h : applyMove adj r a s = .ok s') :
    applyMove adj r a { s with rng := rng } = .ok { s' with rng := rng } := by
  unfold applyMove at h ⊢
  simp only [Res.bind_eq_ok] at h
  obtain ⟨n1, h1, n2, h2, n3, h3, n4, h4, h5⟩ := h
  cases h5
  simp only [h1, h2, h3, h4, Res.bind_ok]

/-- Some tape leads from `s` to a state with labels `L`, and leaves any tape one likes. -/
def Leads {α : Type} (run : AzpState σ k → Res α) (out : AzpState σ k → α) (adj : Adj k)
    (M : Labels k → σ → Prop) (s : AzpState σ k) (L : Labels k) : Prop :=
  ∃ s', Holds adj M s' L ∧ ∀ r', ∃ r0, run { s with rng := r0 } = .ok (out { s' with rng := r' })

section
variable (hd : Decides ops adj allowed M)
include hd

theorem try_sound (hs : Symmetric adj) {r : Int} {L : Labels k} : ∀ (fuel : Nat) (cands : List (Fin k))
    (s : AzpState σ k), Holds adj M s L → (∀ c ∈ cands, Admissible adj L c r) →
    ∀ b s', tryCandidates ops adj r fuel cands s = .ok (b, s') →
      (b = false → Holds adj M s' L ∧ ∀ c ∈ cands, ¬ allowed L c r) ∧
      (b = true → ∃ a, Admissible adj L a r ∧ allowed L a r ∧ Holds adj M s' (moved L a r)) := by
  intro fuel
  induction fuel with
  | zero =>
    intro cands s h hc b s' hrun
    cases cands with
    | nil =>
      unfold tryCandidates at hrun; cases hrun
      exact ⟨fun _ => ⟨h, by simp⟩, fun h => by cases h⟩
    | cons => unfold tryCandidates at hrun; cases hrun
  | succ fuel ih =>
    intro cands s h hc b s' hrun
    cases cands with
    | nil =>
      unfold tryCandidates at hrun; cases hrun
      exact ⟨fun _ => ⟨h, by simp⟩, fun h => by cases h⟩
    | cons c cs =>
      unfold tryCandidates at hrun
      obtain ⟨pos, hpos, hpop⟩ := popRandomlyFrom_ne_nil (lst := c :: cs) (by simp) s.rng
      rw [hpop, Res.bind_ok] at hrun
      dsimp only at hrun
      generalize hca : (c :: cs)[pos] = cand at hrun
      have hcm : Admissible adj L cand r := hc _ (hca ▸ List.getElem_mem hpos)
      have hl : s.labels = L := h.labels
      subst hl
      by_cases hal : allowed s.labels cand r
      · obtain ⟨st', h1, h2⟩ := hd.yes h.contiguous hcm h.strat hal
        rw [h1, Res.bind_ok] at hrun
        dsimp only at hrun
        rw [if_pos rfl, Res.bind_eq_ok] at hrun
        obtain ⟨s1, h3, h4⟩ := hrun
        cases h4
        obtain ⟨s2, g1, g2, g3, g4, g5⟩ := applyMove_spec
          (s := { s with strat := st', rng := s.rng.next }) hs h.nbrs h.contiguous hcm
        rw [g1] at h3
        cases h3
        refine ⟨(fun h => by cases h), fun _ => ⟨cand, hcm, hal, g2, g3, ?_, ?_⟩⟩
        · rw [g2]; exact moved_contiguous h.contiguous hcm
        · rw [g4]; exact h2
      · obtain ⟨st', h1, h2⟩ := hd.no h.contiguous hcm h.strat hal
        rw [h1, Res.bind_ok] at hrun
        dsimp only at hrun
        rw [if_neg (by simp)] at hrun
        obtain ⟨i1, i2⟩ := ih _ { s with strat := st', rng := s.rng.next }
          ⟨rfl, h.nbrs, h.contiguous, h2⟩ (fun x hx => hc x (List.mem_of_mem_eraseIdx hx)) b s' hrun
        refine ⟨fun hb => ⟨(i1 hb).1, ?_⟩, i2⟩
        intro x hx
        obtain ⟨j, hj, rfl⟩ := List.mem_iff_getElem.1 hx
        by_cases hjp : j = pos
        · subst hjp; rw [hca]; exact hal
        · exact (i1 hb).2 _ (List.mem_eraseIdx_iff_getElem.2 ⟨j, hj, hjp, rfl⟩)

theorem try_refused {r : Int} {L : Labels k} : ∀ (fuel : Nat) (cands : List (Fin k))
    (s : AzpState σ k), Holds adj M s L → (∀ c ∈ cands, Admissible adj L c r) →
    (∀ c ∈ cands, ¬ allowed L c r) → cands.length ≤ fuel →
    Leads (tryCandidates ops adj r fuel cands) (fun s => (false, s)) adj M s L := by
  intro fuel
  induction fuel with
  | zero =>
    intro cands s h hc hno hl
    have : cands = [] := by simpa using hl
    subst this
    exact ⟨s, h, fun r' => ⟨r', rfl⟩⟩
  | succ fuel ih =>
    intro cands s h hc hno hl
    cases cands with
    | nil => exact ⟨s, h, fun r' => ⟨r', rfl⟩⟩
    | cons c cs =>
      have hl' : s.labels = L := h.labels
      subst hl'
      obtain ⟨st', h1, h2⟩ := hd.no h.contiguous (hc c (by simp)) h.strat (hno c (by simp))
      obtain ⟨s', g1, g2⟩ := ih cs { s with strat := st' } ⟨rfl, h.nbrs, h.contiguous, h2⟩
        (fun x hx => hc x (by simp [hx])) (fun x hx => hno x (by simp [hx]))
        (by simpa using hl)
      refine ⟨s', g1, fun r' => ?_⟩
      obtain ⟨r0, g3⟩ := g2 r'
      refine ⟨Rng.cons 0 r0, ?_⟩
      unfold tryCandidates
      dsimp only
      rw [popRandomlyFrom_any (c :: cs) 0 (by simp) r0, Res.bind_ok]
      simp only [List.getElem_cons_zero, List.eraseIdx_cons_zero, h1, Res.bind_ok]
      simpa using g3

theorem try_accepts (hs : Symmetric adj) {r : Int} {L : Labels k} {fuel : Nat} {cands : List (Fin k)}
    {s : AzpState σ k} (h : Holds adj M s L) {a : Fin k} (ha : a ∈ cands)
    (hc : Admissible adj L a r) (hal : allowed L a r) (hl : cands.length ≤ fuel) :
    Leads (tryCandidates ops adj r fuel cands) (fun s => (true, s)) adj M s (moved L a r) := by
  have hl' : s.labels = L := h.labels
  subst hl'
  obtain ⟨pos, hpos, rfl⟩ := List.mem_iff_getElem.1 ha
  obtain ⟨st', h1, h2⟩ := hd.yes h.contiguous hc h.strat hal
  obtain ⟨s2, g1, g2, g3, g4, g5⟩ := applyMove_spec
    (s := { s with strat := st' }) hs h.nbrs h.contiguous hc
  refine ⟨s2, ⟨g2, g3, ?_, ?_⟩, fun r' => ⟨Rng.cons pos r', ?_⟩⟩
  · rw [g2]; exact moved_contiguous h.contiguous hc
  · rw [g4]; exact h2
  · obtain ⟨c, cs, rfl⟩ : ∃ c cs, cands = c :: cs := by
      cases cands with
      | nil => cases ha
      | cons c cs => exact ⟨c, cs, rfl⟩
    obtain ⟨fuel, rfl⟩ : ∃ f, fuel = f + 1 := by
      cases fuel with
      | zero => simp at hl
      | succ f => exact ⟨f, rfl⟩
    unfold tryCandidates
    dsimp only
    rw [popRandomlyFrom_any (c :: cs) pos hpos r', Res.bind_ok]
    simp only [h1, Res.bind_ok, if_true]
    have := applyMove_rng _ _ _ _ r' g1
    dsimp only at this
    rw [this]
    rfl

theorem grow_sound (hs : Symmetric adj) {r : Int} : ∀ (fuel : Nat) (s : AzpState σ k) (L : Labels k),
    Holds adj M s L → (∃ i, L i = r) → ∀ s', growRegion ops adj r fuel s = .ok s' →
    ∃ L', Grown adj allowed r L L' ∧ Holds adj M s' L' := by
  intro fuel
  induction fuel with
  | zero => intro s p h hr s' hrun; cases hrun
  | succ fuel ih =>
    intro s L h hr s' hrun
    unfold growRegion at hrun
    have hl : s.labels = L := h.labels
    obtain ⟨N, hN1, hN2⟩ := h.nbrs r (by rw [hl]; exact hr)
    rw [hl] at hN2
    have : getNbrs s.nbrs r = .ok N := by unfold getNbrs; rw [hN1]
    rw [this, Res.bind_ok] at hrun
    dsimp only at hrun
    rw [Res.bind_eq_ok] at hrun
    obtain ⟨⟨b, s1⟩, h1, hrun⟩ := hrun
    dsimp only at hrun
    rw [hl] at h1
    have hcand : ∀ c, c ∈ candidates adj L N ↔ Admissible adj L c r := fun c => mem_candidates hs hN2
    obtain ⟨t1, t2⟩ := try_sound hd hs _ _ s h (fun c hc => (hcand c).1 hc) b s1 h1
    cases b with
    | false =>
      rw [if_neg (by simp)] at hrun
      cases hrun
      exact ⟨L, .stop fun a ha => (t1 rfl).2 a ((hcand a).2 ha), (t1 rfl).1⟩
    | true =>
      rw [if_pos rfl] at hrun
      obtain ⟨a, ha, hal, h2⟩ := t2 rfl
      obtain ⟨L', i1, i2⟩ := ih s1 _ h2 ((moved_image ha r).2 hr) s' hrun
      exact ⟨L', .move ha hal i1, i2⟩

theorem grow_complete (hs : Symmetric adj) {r : Int} {L L' : Labels k} (hg : Grown adj allowed r L L') :
    ∀ (fuel : Nat) (s : AzpState σ k), Holds adj M s L → (∃ i, L i = r) →
      k < fuel + regionSize L r → Leads (growRegion ops adj r fuel) id adj M s L' := by
  induction hg with
  | @stop L hno =>
    intro fuel s h hr hf
    have := regionSize_le L r
    obtain ⟨fuel, rfl⟩ : ∃ f, fuel = f + 1 := ⟨fuel - 1, by omega⟩
    have hl : s.labels = L := h.labels
    subst hl
    obtain ⟨N, hN1, hN2⟩ := h.nbrs r hr
    have hcand : ∀ c, c ∈ candidates adj s.labels N ↔ Admissible adj s.labels c r :=
      fun c => mem_candidates hs hN2
    obtain ⟨s', g1, g2⟩ := try_refused hd (candidates adj s.labels N).length _ s h
      (fun c hc => (hcand c).1 hc) (fun c hc => hno c ((hcand c).1 hc)) le_rfl
    refine ⟨s', g1, fun r' => ?_⟩
    obtain ⟨r0, g3⟩ := g2 r'
    refine ⟨r0, ?_⟩
    unfold growRegion
    have : getNbrs s.nbrs r = .ok N := by unfold getNbrs; rw [hN1]
    simp only [this, Res.bind_ok]
    rw [g3]
    rfl
  | @move L L' a ha hal _ ih =>
    intro fuel s h hr hf
    have := regionSize_le L r
    obtain ⟨fuel, rfl⟩ : ∃ f, fuel = f + 1 := ⟨fuel - 1, by omega⟩
    have hl : s.labels = L := h.labels
    subst hl
    obtain ⟨N, hN1, hN2⟩ := h.nbrs r hr
    have hcand : ∀ c, c ∈ candidates adj s.labels N ↔ Admissible adj s.labels c r :=
      fun c => mem_candidates hs hN2
    obtain ⟨s1, g1, g2⟩ := try_accepts hd hs h ((hcand a).2 ha) ha hal le_rfl
    have hsz := regionSize_moved ha.1
    obtain ⟨s', i1, i2⟩ := ih fuel s1 g1 ((moved_image ha r).2 hr) (by omega)
    refine ⟨s', i1, fun r' => ?_⟩
    obtain ⟨r1, i3⟩ := i2 r'
    obtain ⟨r0, g3⟩ := g2 r1
    refine ⟨r0, ?_⟩
    unfold growRegion
    have : getNbrs s.nbrs r = .ok N := by unfold getNbrs; rw [hN1]
    simp only [this, Res.bind_ok]
    rw [g3]
    exact i3

end

theorem grown_image {r : Int} {L L' : Labels k} (h : Grown adj allowed r L L') (x : Int) :
    (∃ i, L' i = x) ↔ ∃ i, L i = x := by
  induction h with
  | stop => rfl
  | move ha _ _ ih => exact ih.trans (moved_image ha x)

theorem passed_image {rs : List Int} {L L' : Labels k} (h : Passed adj allowed rs L L') (x : Int) :
    (∃ i, L' i = x) ↔ ∃ i, L i = x := by
  induction h with
  | nil => rfl
  | cons h _ ih => exact ih.trans (grown_image h x)

section
variable (hd : Decides ops adj allowed M) (hs : Symmetric adj)
include hd hs

theorem pass_sound (fuel : Nat) : ∀ (m : Nat) (regions : List Int) (s : AzpState σ k) (L : Labels k),
    Holds adj M s L → (∀ r ∈ regions, ∃ i, L i = r) →
    ∀ s', passRegions ops adj fuel m regions s = .ok s' →
    ∃ rs L', rs.Perm regions ∧ Passed adj allowed rs L L' ∧ Holds adj M s' L' := by
  intro m
  induction m with
  | zero =>
    intro regions s L h hr s' hrun
    cases regions with
    | nil => unfold passRegions at hrun; cases hrun; exact ⟨[], L, .refl _, .nil, h⟩
    | cons => unfold passRegions at hrun; cases hrun
  | succ m ih =>
    intro regions s L h hr s' hrun
    cases regions with
    | nil => unfold passRegions at hrun; cases hrun; exact ⟨[], L, .refl _, .nil, h⟩
    | cons x xs =>
      unfold passRegions at hrun
      obtain ⟨pos, hpos, hpop⟩ := popRandomlyFrom_ne_nil (lst := x :: xs) (by simp) s.rng
      rw [hpop, Res.bind_ok] at hrun
      dsimp only at hrun
      rw [Res.bind_eq_ok] at hrun
      obtain ⟨s1, h1, h2⟩ := hrun
      have hrm := hr _ (List.getElem_mem hpos)
      obtain ⟨L1, g1, g2⟩ := grow_sound hd hs fuel _ L (h.draw _) hrm s1 h1
      obtain ⟨rs, L', i1, i2, i3⟩ := ih _ s1 L1 g2 (fun r h => (grown_image g1 r).2
        (hr r (List.mem_of_mem_eraseIdx h))) s' h2
      refine ⟨_, L', ?_, .cons g1 i2, i3⟩
      exact (i1.cons _).trans (List.getElem_cons_eraseIdx_perm hpos)

theorem pass_complete {fuel : Nat} (hf : k < fuel) : ∀ {rs : List Int} {L L' : Labels k},
    Passed adj allowed rs L L' → ∀ (m : Nat) (regions : List Int), rs.Perm regions → regions.length ≤ m →
    ∀ s : AzpState σ k, Holds adj M s L → (∀ r ∈ regions, ∃ i, L i = r) →
      Leads (passRegions ops adj fuel m regions) id adj M s L' := by
  intro rs L L' hp
  induction hp with
  | nil =>
    intro m regions hperm hm s h hr
    have := hperm.nil_eq
    subst this
    exact ⟨s, h, fun r' => ⟨r', by unfold passRegions; rfl⟩⟩
  | @cons r rs L L1 L' hg hp ih =>
    intro m regions hperm hm s h hr
    obtain ⟨pos, hpos, hx⟩ := List.mem_iff_getElem.1 (hperm.mem_iff.1 (List.mem_cons_self ..))
    obtain ⟨m, rfl⟩ : ∃ j, m = j + 1 := ⟨m - 1, by omega⟩
    have hperm' : rs.Perm (regions.eraseIdx pos) := by
      have := hperm.trans (List.getElem_cons_eraseIdx_perm hpos).symm
      rw [hx] at this
      exact this.cons_inv
    have hrm : ∃ i, L i = r := hr r (hx ▸ List.getElem_mem hpos)
    obtain ⟨s1, g1, g2⟩ := grow_complete hd hs hg fuel s h hrm (by omega)
    obtain ⟨s', i1, i2⟩ := ih m _ hperm' (by rw [List.length_eraseIdx_of_lt hpos]; omega) s1 g1
      (fun x hx => (grown_image hg x).2 (hr x (List.mem_of_mem_eraseIdx hx)))
    refine ⟨s', i1, fun r' => ?_⟩
    obtain ⟨r1, i3⟩ := i2 r'
    obtain ⟨r0, g3⟩ := g2 r1
    refine ⟨Rng.cons pos r0, ?_⟩
    cases regions with
    | nil => cases hpos
    | cons x xs =>
      unfold passRegions
      dsimp only
      rw [popRandomlyFrom_any (x :: xs) pos hpos r0, Res.bind_ok]
      dsimp only
      rw [hx, g3]
      exact i3

end

variable (value : Labels k → ℚ)

section
variable (hd : Decides ops adj allowed M) (hs : Symmetric adj)
  (hv : ∀ {L : Labels k} {st : σ}, M L st → ops.objVal st = value L)
include hd hs hv

theorem outer_sound (fuel : Nat) {regions : List Int} (hnd : regions.Nodup) : ∀ (m : Nat) (start : Option ℚ)
    (s : AzpState σ k) (L : Labels k), Holds adj M s L → (∀ r, r ∈ regions ↔ ∃ i, L i = r) →
    improving start (value L) = true →
    ∀ s', azpOuter ops adj regions fuel m start (value L) s = .ok s' →
    ∃ L', Rounds adj allowed value L L' ∧ Holds adj M s' L' := by
  intro m
  induction m with
  | zero => intro start s L h hr hi s' hrun; unfold azpOuter at hrun; rw [if_pos hi] at hrun; cases hrun
  | succ m ih =>
    intro start s L h hr hi s' hrun
    unfold azpOuter at hrun
    rw [if_pos hi] at hrun
    dsimp only at hrun
    rw [Res.bind_eq_ok] at hrun
    obtain ⟨s1, h1, h2⟩ := hrun
    obtain ⟨rs, L1, p1, p2, p3⟩ := pass_sound hd hs fuel _ regions s L h (fun r h => (hr r).1 h) s1 h1
    have he : Enumerates rs L := ⟨p1.nodup_iff.2 hnd, fun x => p1.mem_iff.trans (hr x)⟩
    rw [hv p3.strat] at h2
    by_cases hlt : value L1 < value L
    · obtain ⟨L', i1, i2⟩ := ih (some (value L)) s1 L1 p3 (fun r => (hr r).trans (passed_image p2 r).symm)
        (by simp [improving, hlt]) s' h2
      exact ⟨L', .again he p2 hlt i1, i2⟩
    · unfold azpOuter at h2
      rw [if_neg (by simp [improving, hlt])] at h2
      cases h2
      exact ⟨L1, .last he p2 hlt, p3⟩

theorem outer_complete {fuel : Nat} (hf : k < fuel) {regions : List Int} (hnd : regions.Nodup)
    {L L' : Labels k} (hR : Rounds adj allowed value L L') :
    ∃ m, ∀ (start : Option ℚ) (s : AzpState σ k), Holds adj M s L → (∀ r, r ∈ regions ↔ ∃ i, L i = r) →
      improving start (value L) = true →
      Leads (azpOuter ops adj regions fuel m start (value L)) id adj M s L' := by
  induction hR with
  | @last rs L L' he hp hlt =>
    refine ⟨1, fun start s h hr hi => ?_⟩
    have hperm : rs.Perm regions :=
      (List.perm_ext_iff_of_nodup he.1 hnd).2 fun x => (he.2 x).trans (hr x).symm
    obtain ⟨s', g1, g2⟩ := pass_complete hd hs hf hp regions.length regions hperm le_rfl s h
      (fun r h => (hr r).1 h)
    refine ⟨s', g1, fun r' => ?_⟩
    obtain ⟨r0, g3⟩ := g2 r'
    refine ⟨r0, ?_⟩
    unfold azpOuter
    rw [if_pos hi]
    dsimp only
    rw [g3, Res.bind_ok]
    unfold azpOuter
    dsimp only [id]
    rw [if_neg (by rw [hv g1.strat]; simp [improving, hlt])]
  | @again rs L L1 L' he hp hlt hR ih =>
    obtain ⟨m, ih⟩ := ih
    refine ⟨m + 1, fun start s h hr hi => ?_⟩
    have hperm : rs.Perm regions :=
      (List.perm_ext_iff_of_nodup he.1 hnd).2 fun x => (he.2 x).trans (hr x).symm
    obtain ⟨s1, g1, g2⟩ := pass_complete hd hs hf hp regions.length regions hperm le_rfl s h
      (fun r h => (hr r).1 h)
    obtain ⟨s', i1, i2⟩ := ih (some (value L)) s1 g1 (fun r => (hr r).trans (passed_image hp r).symm)
        (by simp [improving, hlt])
    refine ⟨s', i1, fun r' => ?_⟩
    obtain ⟨r1, i3⟩ := i2 r'
    obtain ⟨r0, g3⟩ := g2 r1
    refine ⟨r0, ?_⟩
    unfold azpOuter
    rw [if_pos hi]
    dsimp only
    rw [g3, Res.bind_ok]
    dsimp only [id]
    rw [hv g1.strat]
    exact i3

end

/-- More iterations of the outer loop change nothing once it has ended. -/
theorem outer_mono (regions : List Int) (fuel : Nat) : ∀ (m m' : Nat) (start : Option ℚ) (stop : ℚ)
    (s : AzpState σ k), m ≤ m' → azpOuter ops adj regions fuel m start stop s ≠ .timeout →
    azpOuter ops adj regions fuel m' start stop s = azpOuter ops adj regions fuel m start stop s := by
  intro m
  induction m with
  | zero =>
    intro m' start stop s _ h
    unfold azpOuter at h ⊢
    by_cases hi : improving start stop = true
    · rw [if_pos hi] at h; exact absurd rfl h
    · rw [if_neg hi, if_neg hi]
  | succ m ih =>
    intro m' start stop s hm h
    obtain ⟨m', rfl⟩ : ∃ j, m' = j + 1 := ⟨m' - 1, by omega⟩
    unfold azpOuter at h ⊢
    by_cases hi : improving start stop = true
    · rw [if_pos hi] at h
      rw [if_pos hi, if_pos hi]
      dsimp only at h ⊢
      cases hp : passRegions ops adj fuel regions.length regions s with
      | ok s1 =>
        rw [hp, Res.bind_ok] at h
        rw [Res.bind_ok, Res.bind_ok]
        exact ih m' _ _ s1 (by omega) h
      | raise e => rfl
      | timeout => rfl
    · rw [if_neg hi, if_neg hi]

/-- With one region there is nothing to do. -/
theorem rounds_one {init L : Labels k} (h1 : numRegions init = 1) (h : Rounds adj allowed value init L) :
    L = init := by
  have hno : ∀ a r, ¬ Admissible adj init a r := by
    obtain ⟨z, hz⟩ := Finset.card_eq_one.1 h1
    have : ∀ x, init x = z := fun x => by
      have : init x ∈ Finset.univ.image init := by simp
      rw [hz] at this; simpa using this
    rintro a r ⟨g1, ⟨u, g2, _⟩, _⟩
    exact g1 (by rw [← g2, this, this])
  have hgrow : ∀ {r : Int} {L L' : Labels k}, L = init → Grown adj allowed r L L' → L' = init := by
    intro r L L' he hg
    cases hg with
    | stop => exact he
    | move ha => exact absurd (he ▸ ha) (hno _ _)
  have hpass : ∀ {rs : List Int} {L L' : Labels k}, L = init → Passed adj allowed rs L L' → L' = init := by
    intro rs L L' he hp
    induction hp with
    | nil => exact he
    | cons hg _ ih => exact ih (hgrow he hg)
  cases h with
  | last _ hp => exact hpass rfl hp
  | again _ hp hv => rw [hpass rfl hp] at hv; exact absurd hv (lt_irrefl _)

theorem rounds_one_self {init : Labels k} (h1 : numRegions init = 1) :
    Rounds adj allowed value init init := by
  obtain ⟨z, hz⟩ := Finset.card_eq_one.1 h1
  have hall : ∀ x, init x = z := fun x => by
    have : init x ∈ Finset.univ.image init := by simp
    rw [hz] at this; simpa using this
  have hex : ∃ x, init x = z := by
    have : z ∈ Finset.univ.image init := by rw [hz]; simp
    simpa using this
  refine .last (rs := [z]) ⟨by simp, fun x => ?_⟩ (.cons (.stop ?_) .nil) (lt_irrefl _)
  · rw [List.mem_singleton]
    exact ⟨fun h => h ▸ hex, fun ⟨i, hi⟩ => by rw [← hi, hall]⟩
  · rintro a ⟨g1, _⟩
    exact absurd (hall a) g1

section
variable (hd : Decides ops adj allowed M) (hs : Symmetric adj)
  (hv : ∀ {L : Labels k} {st : σ}, M L st → ops.objVal st = value L)
include hd hs hv

theorem component_sound {fuel : Nat} {init : Labels k} (hk : 0 < k) (hc : AllContiguous adj init) {st : σ}
    (hM : M init st) {rng rng' : Rng} {L : Labels k} {st' : σ}
    (hrun : azpComponent ops adj fuel init st rng = .ok (L, st', rng')) :
    Rounds adj allowed value init L ∧ M L st' := by
  unfold azpComponent at hrun
  dsimp only at hrun
  rw [length_unique_labels] at hrun
  have hreg : ∀ r, r ∈ uniqueSorted (arrayList init) ↔ ∃ i, init i = r := by
    intro r; rw [mem_uniqueSorted, mem_arrayList]
  by_cases h1 : numRegions init = 1
  · rw [if_pos h1] at hrun
    cases hrun
    exact ⟨rounds_one_self value h1, hM⟩
  · rw [if_neg h1] at hrun
    have h0 : uniqueSorted (arrayList init) ≠ [] := by
      intro h
      have := (hreg (init ⟨0, hk⟩)).2 ⟨_, rfl⟩
      rw [h] at this; cases this
    rw [if_neg h0, Res.bind_eq_ok] at hrun
    obtain ⟨s, h2, h3⟩ := hrun
    cases h3
    rw [hv hM] at h2
    obtain ⟨L', i1, i2⟩ := outer_sound value hd hs hv fuel (uniqueSorted_nodup _) fuel none _ init
      ⟨rfl, initNbrs_ok adj init, hc, hM⟩ hreg rfl s h2
    rw [i2.labels]
    exact ⟨i1, i2.strat⟩

theorem component_complete {fuel : Nat} {init : Labels k} (hk : 0 < k) (hc : AllContiguous adj init) {st : σ}
    (hM : M init st) (hf : k < fuel) (htot : ∀ rng, azpComponent ops adj fuel init st rng ≠ .timeout)
    {L : Labels k} (hR : Rounds adj allowed value init L) :
    ∃ st', M L st' ∧ ∀ r', ∃ r0, azpComponent ops adj fuel init st r0 = .ok (L, st', r') := by
  unfold azpComponent at htot ⊢
  dsimp only at htot ⊢
  rw [length_unique_labels] at htot ⊢
  have hreg : ∀ r, r ∈ uniqueSorted (arrayList init) ↔ ∃ i, init i = r := by
    intro r; rw [mem_uniqueSorted, mem_arrayList]
  by_cases h1 : numRegions init = 1
  · have := rounds_one value h1 hR
    subst this
    exact ⟨st, hM, fun r' => ⟨r', by rw [if_pos h1]⟩⟩
  · have h0 : uniqueSorted (arrayList init) ≠ [] := by
      intro h
      have := (hreg (init ⟨0, hk⟩)).2 ⟨_, rfl⟩
      rw [h] at this; cases this
    simp only [if_neg h1, if_neg h0] at htot ⊢
    obtain ⟨m, hm⟩ := outer_complete value hd hs hv hf (uniqueSorted_nodup (arrayList init)) hR
    obtain ⟨s', g1, g2⟩ := hm none
      ⟨init, initNbrs adj init (uniqueSorted (arrayList init)), st, fun _ => 0⟩
      ⟨rfl, initNbrs_ok adj init, hc, hM⟩ hreg rfl
    refine ⟨s'.strat, g1.strat, fun r' => ?_⟩
    obtain ⟨r0, g3⟩ := g2 r'
    refine ⟨r0, ?_⟩
    have ht := htot r0
    rw [hv hM] at ht ⊢
    dsimp only [id] at g3
    have key : azpOuter ops adj (uniqueSorted (arrayList init)) fuel fuel none (value init)
        { labels := init, nbrs := initNbrs adj init (uniqueSorted (arrayList init)), strat := st, rng := r0 }
        = .ok { s' with rng := r' } := by
      rcases le_total m fuel with h | h
      · rw [outer_mono _ _ m fuel _ _ _ h (by rw [g3]; simp), g3]
      · rw [← g3]
        refine (outer_mono _ _ fuel m _ _ _ h fun hto => ht ?_).symm
        rw [hto]; rfl
    rw [key, Res.bind_ok, g1.labels]

end

end

end Region
