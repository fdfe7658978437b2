import Verif.Lemmas.SparseAzp
import Verif.Lemmas.Rel
import Verif.Lemmas.AzpFit
import Verif.Model.AzpTabu
/-
Two adjacency matrices that differ only on the diagonal: an area may be listed as its own neighbor.
-/
namespace Region

open Spec Relation

/-- The two matrices agree outside the diagonal. -/
def OffDiag {n : Nat} (adj adj' : Adj n) : Prop := ∀ a b, a ≠ b → adj a b = adj' a b

namespace OffDiag
variable {n : Nat} {adj adj' : Adj n}

theorem symm (h : OffDiag adj adj') : OffDiag adj' adj := fun a b hab => (h a b hab).symm

theorem borders (h : OffDiag adj adj') {a b : Fin n} (hab : a ≠ b) (hb : Borders adj a b) :
    Borders adj' a b := by
  unfold Borders at *
  rwa [← h a b hab, ← h b a hab.symm]

theorem path (h : OffDiag adj adj') {S : Set (Fin n)} {a b : Fin n} (hp : PathIn adj S a b) :
    PathIn adj' S a b := by
  refine rtg_lift id (fun x y hxy => ?_) hp
  by_cases e : x = y
  · subst e; exact .refl
  · exact .single ⟨hxy.1, hxy.2.1, h.borders e hxy.2.2⟩

theorem island (h : OffDiag adj adj') {a b : Fin n} (hp : SameIsland adj a b) :
    SameIsland adj' a b := by
  refine rtg_lift id (fun x y hxy => ?_) hp
  by_cases e : x = y
  · subst e; exact .refl
  · exact .single (h.borders e hxy)

theorem contiguous (h : OffDiag adj adj') (S : Set (Fin n)) : Contiguous adj S ↔ Contiguous adj' S :=
  ⟨fun hc => ⟨hc.1, fun a ha b hb => h.path (hc.2 a ha b hb)⟩,
    fun hc => ⟨hc.1, fun a ha b hb => h.symm.path (hc.2 a ha b hb)⟩⟩

theorem allContiguous (h : OffDiag adj adj') (L : Labels n) :
    AllContiguous adj L ↔ AllContiguous adj' L := forall_congr' fun v => h.contiguous _

theorem compRepr (h : OffDiag adj adj') (a b : Fin n) :
    Region.compRepr adj a = Region.compRepr adj b ↔ Region.compRepr adj' a = Region.compRepr adj' b := by
  rw [compRepr_eq_iff, compRepr_eq_iff]
  exact ⟨h.island, h.symm.island⟩

theorem firstNodes (h : OffDiag adj adj') : Region.firstNodes adj = Region.firstNodes adj' := by
  unfold Region.firstNodes
  simp only [h.compRepr]

theorem nComponents (h : OffDiag adj adj') : Region.nComponents adj = Region.nComponents adj' := by
  unfold Region.nComponents
  rw [h.firstNodes]

theorem compLabels (h : OffDiag adj adj') : Region.compLabels adj = Region.compLabels adj' := by
  unfold Region.compLabels
  simp only [h.firstNodes, h.compRepr]

theorem isConnected (h : OffDiag adj adj') : Region.isConnected adj = Region.isConnected adj' := by
  unfold Region.isConnected
  rw [h.nComponents]

theorem sub (h : OffDiag adj adj') {nodes : List (Fin n)} (hn : nodes.Nodup) :
    OffDiag (subAdj adj nodes) (subAdj adj' nodes) :=
  fun i j hij => h _ _ fun e => hij (List.nodup_iff_injective_get.1 hn e)

theorem assertLoop (h : OffDiag adj adj') (L : Labels n) (rs : List Int) :
    Region.assertLoop L adj rs = Region.assertLoop L adj' rs := by
  induction rs with
  | nil => rfl
  | cons r rs ih =>
    unfold Region.assertLoop
    rw [ih, (h.sub (whereEq_nodup L r)).isConnected]

theorem assertFeasible (h : OffDiag adj adj') (L : Labels n) (p : Option Int) :
    Region.assertFeasible L adj p = Region.assertFeasible L adj' p := by
  unfold Region.assertFeasible
  simp only [h.assertLoop]

theorem booleanAssertFeasible (h : OffDiag adj adj') (L : Labels n) (p : Option Int) :
    Region.booleanAssertFeasible L adj p = Region.booleanAssertFeasible L adj' p := by
  unfold Region.booleanAssertFeasible
  simp only [(h.sub (whereEq_nodup L _)).isConnected]

theorem separateComponents (h : OffDiag adj adj') (L : Labels n) :
    Region.separateComponents adj L = Region.separateComponents adj' L := by
  unfold Region.separateComponents
  rw [h.nComponents, h.compLabels]

theorem subWo (h : OffDiag adj adj') (L : Labels n) (r : Int) (a : Fin n) :
    Region.isConnected (subAdjWo adj (whereEq L r) [a]) =
      Region.isConnected (subAdjWo adj' (whereEq L r) [a]) :=
  (h.sub (dropNodes_nodup (whereEq_nodup L r) _)).isConnected

end OffDiag

/-! ### AZP -/

section Azp
variable {σ : Type} {k : Nat} {adj adj' : Adj k}

theorem initNbrs_off (h : OffDiag adj adj') (L : Labels k) (regions : List Int) :
    initNbrs adj L regions = initNbrs adj' L regions := by
  unfold initNbrs
  funext r
  split_ifs
  · congr 1
    funext v
    by_cases hv : L v = r
    · have : (whereEq L r).contains v = true := by rw [List.contains_iff_mem, mem_whereEq]; exact hv
      simp only [this, Bool.not_true, Bool.and_false]
    · congr 1
      rw [Bool.eq_iff_iff]
      simp only [List.any_eq_true, mem_whereEq, List.contains_iff_mem, mem_neighbors]
      refine exists_congr fun a => and_congr_right fun ha => ?_
      rw [h a v (by rintro rfl; exact hv ha)]
  · rfl

theorem candidates_off (h : OffDiag adj adj') (L : Labels k) (border : Fin k → Bool) :
    candidates adj L border = candidates adj' L border := by
  unfold candidates
  simp only [h.subWo]

theorem nbrsOk_off (h : OffDiag adj adj') {L : Labels k} {nbrs : Int → Option (Fin k → Bool)}
    (hN : NbrsOk adj L nbrs) : NbrsOk adj' L nbrs := by
  intro r hr
  obtain ⟨N, h1, h2⟩ := hN r hr
  refine ⟨N, h1, fun v => (h2 v).trans (and_congr_right fun hv => exists_congr fun u =>
    and_congr_right fun hu => ?_)⟩
  rw [h u v (by rintro rfl; exact hv hu)]

/-- The states of the two runs: the same, with the dict `region_neighbors` right in both. -/
structure LoopCorr (adj : Adj k) (s s' : AzpState σ k) : Prop where
  labels : s.labels = s'.labels
  strat : s.strat = s'.strat
  rng : s.rng = s'.rng
  nbrs : NbrsOk adj s.labels s.nbrs
  nbrs' : NbrsOk adj s'.labels s'.nbrs
  contiguous : AllContiguous adj s.labels

theorem admissible_off (h : OffDiag adj adj') {L : Labels k} {a : Fin k} {r : Int}
    (hm : Admissible adj L a r) : Admissible adj' L a r := by
  obtain ⟨h1, ⟨u, hu, hua⟩, h3, h4⟩ := hm
  exact ⟨h1, ⟨u, hu, h.borders (by rintro rfl; exact h1 hu) hua⟩, h3, (h.contiguous _).1 h4⟩

open Res

variable (hs : Symmetric adj) (hs' : Symmetric adj') (h : OffDiag adj adj')
include hs hs' h

theorem applyMove_off {s s' : AzpState σ k} (hc : LoopCorr adj s s') {a : Fin k} {r : Int}
    (hm : Admissible adj s.labels a r) :
    Rel (fun t t' => LoopCorr adj t t' ∧ t.labels = moved s.labels a r) (applyMove adj r a s)
      (applyMove adj' r a s') := by
  obtain ⟨t, h1, h2, h3, h4, h5⟩ := applyMove_spec hs hc.nbrs hc.contiguous hm
  have hm' : Admissible adj' s'.labels a r := hc.labels ▸ admissible_off h hm
  obtain ⟨t', h1', h2', h3', h4', h5'⟩ := applyMove_spec hs' (nbrsOk_off h hc.nbrs')
    (hc.labels ▸ (h.allContiguous _).1 hc.contiguous) hm'
  rw [h1, h1']
  refine ⟨⟨by rw [h2, h2', hc.labels], by rw [h4, h4', hc.strat], by rw [h5, h5', hc.rng], h3,
    nbrsOk_off h.symm h3', by rw [h2]; exact moved_contiguous hc.contiguous hm⟩, h2⟩

theorem tryCandidates_off (ops : StratOps σ k) (r : Int) : ∀ (fuel : Nat) (cs : List (Fin k))
    {s s' : AzpState σ k}, LoopCorr adj s s' → (∀ c ∈ cs, Admissible adj s.labels c r) →
    Rel (fun x x' => x.1 = x'.1 ∧ LoopCorr adj x.2 x'.2 ∧
        ∀ z, (∃ i, x.2.labels i = z) ↔ ∃ i, s.labels i = z)
      (tryCandidates ops adj r fuel cs s) (tryCandidates ops adj' r fuel cs s') := by
  intro fuel
  induction fuel with
  | zero =>
    intro cs s s' hc _
    cases cs with
    | nil => exact ⟨rfl, hc, fun _ => Iff.rfl⟩
    | cons c cs => trivial
  | succ fuel ih =>
    intro cs s s' hc hcs
    cases cs with
    | nil => exact ⟨rfl, hc, fun _ => Iff.rfl⟩
    | cons c cs =>
      unfold tryCandidates
      rw [← hc.rng, ← hc.strat, ← hc.labels]
      obtain ⟨pos, hpos, hpop⟩ := popRandomlyFrom_ne_nil (lst := c :: cs) (by simp) s.rng
      rw [hpop, Res.bind_ok, Res.bind_ok]
      dsimp only
      have hcm : Admissible adj s.labels (c :: cs)[pos] r := hcs _ (List.getElem_mem hpos)
      refine Rel.same _ ?_
      rintro ⟨b, st, rng⟩
      have hc' : LoopCorr adj ⟨s.labels, s.nbrs, st, rng⟩ ⟨s.labels, s'.nbrs, st, rng⟩ :=
        ⟨rfl, rfl, rfl, hc.nbrs, by rw [hc.labels]; exact hc.nbrs', hc.contiguous⟩
      cases b with
      | true =>
        refine Rel.bind (applyMove_off hs hs' h hc' hcm) ?_
        rintro t t' ⟨ht, hl⟩
        exact ⟨rfl, ht, fun z => by rw [hl]; exact moved_image hcm z⟩
      | false => exact ih _ hc' fun x hx => hcs x (List.mem_of_mem_eraseIdx hx)

theorem growRegion_off (ops : StratOps σ k) (r : Int) : ∀ (fuel : Nat) {s s' : AzpState σ k},
    LoopCorr adj s s' → (∃ i, s.labels i = r) →
    Rel (fun t t' => LoopCorr adj t t' ∧ ∀ z, (∃ i, t.labels i = z) ↔ ∃ i, s.labels i = z)
      (growRegion ops adj r fuel s) (growRegion ops adj' r fuel s') := by
  intro fuel
  induction fuel with
  | zero => intro s s' _ _; trivial
  | succ fuel ih =>
    intro s s' hc hr
    unfold growRegion
    obtain ⟨N, hN1, hN2⟩ := hc.nbrs r hr
    obtain ⟨N', hN1', hN2'⟩ := hc.nbrs' r (hc.labels ▸ hr)
    have hNN : N' = N := by
      funext v
      rw [Bool.eq_iff_iff, hN2, hN2', hc.labels]
    have e : getNbrs s.nbrs r = .ok N := by unfold getNbrs; rw [hN1]
    have e' : getNbrs s'.nbrs r = .ok N := by unfold getNbrs; rw [hN1', hNN]
    rw [e, e', Res.bind_ok, Res.bind_ok]
    dsimp only
    rw [← hc.labels, ← candidates_off h]
    refine Rel.bind (tryCandidates_off hs hs' h ops r _ _ hc fun c hcc => (mem_candidates hs hN2).1 hcc) ?_
    rintro ⟨b, t⟩ ⟨b', t'⟩ ⟨h1, h2, h3⟩
    dsimp only at h1 h2 h3 ⊢
    subst h1
    cases b with
    | false => exact ⟨h2, h3⟩
    | true =>
      refine (ih h2 ((h3 r).2 hr)).mono ?_
      rintro u u' ⟨g1, g2⟩
      exact ⟨g1, fun z => (g2 z).trans (h3 z)⟩

theorem passRegions_off (ops : StratOps σ k) (fuel : Nat) : ∀ (m : Nat) (regions : List Int)
    {s s' : AzpState σ k}, LoopCorr adj s s' → (∀ r ∈ regions, ∃ i, s.labels i = r) →
    Rel (fun t t' => LoopCorr adj t t' ∧ ∀ z, (∃ i, t.labels i = z) ↔ ∃ i, s.labels i = z)
      (passRegions ops adj fuel m regions s) (passRegions ops adj' fuel m regions s') := by
  intro m
  induction m with
  | zero =>
    intro regions s s' hc _
    cases regions with
    | nil => exact ⟨hc, fun _ => Iff.rfl⟩
    | cons x xs => trivial
  | succ m ih =>
    intro regions s s' hc hr
    cases regions with
    | nil => exact ⟨hc, fun _ => Iff.rfl⟩
    | cons x xs =>
      unfold passRegions
      rw [← hc.rng]
      obtain ⟨pos, hpos, hpop⟩ := popRandomlyFrom_ne_nil (lst := x :: xs) (by simp) s.rng
      rw [hpop, Res.bind_ok, Res.bind_ok]
      dsimp only
      refine Rel.bind (growRegion_off hs hs' h ops _ fuel
        (s := { s with rng := s.rng.next }) (s' := { s' with rng := s.rng.next })
        ⟨hc.labels, hc.strat, rfl, hc.nbrs, hc.nbrs', hc.contiguous⟩ (hr _ (List.getElem_mem hpos))) ?_
      rintro t t' ⟨g1, g2⟩
      refine (ih _ g1 fun r hr' => (g2 r).2 (hr r (List.mem_of_mem_eraseIdx hr'))).mono ?_
      rintro u u' ⟨k1, k2⟩
      exact ⟨k1, fun z => (k2 z).trans (g2 z)⟩

theorem azpOuter_off (ops : StratOps σ k) (regions : List Int) (fuel : Nat) : ∀ (m : Nat)
    (start : Option ℚ) (stop : ℚ) {s s' : AzpState σ k}, LoopCorr adj s s' →
    (∀ r ∈ regions, ∃ i, s.labels i = r) →
    Rel (LoopCorr adj) (azpOuter ops adj regions fuel m start stop s)
      (azpOuter ops adj' regions fuel m start stop s') := by
  intro m
  induction m with
  | zero =>
    intro start stop s s' hc _
    unfold azpOuter
    split_ifs
    · trivial
    · exact hc
  | succ m ih =>
    intro start stop s s' hc hr
    unfold azpOuter
    split_ifs
    · refine Rel.bind (passRegions_off hs hs' h ops fuel _ regions hc hr) ?_
      rintro t t' ⟨g1, g2⟩
      rw [← g1.strat]
      exact ih _ _ g1 fun r hr' => (g2 r).2 (hr r hr')
    · exact hc

/-- AZP on one component does not look at the diagonal. -/
theorem azpComponent_off (ops : StratOps σ k) (fuel : Nat) {init : Labels k}
    (hc : AllContiguous adj init) (st : σ) (rng : Rng) :
    azpComponent ops adj fuel init st rng = azpComponent ops adj' fuel init st rng := by
  unfold azpComponent
  dsimp only
  split_ifs
  · rfl
  · rfl
  · rw [← initNbrs_off h]
    have := azpOuter_off hs hs' h ops (uniqueSorted (arrayList init)) fuel fuel none (ops.objVal st)
      (s := ⟨init, initNbrs adj init (uniqueSorted (arrayList init)), st, rng⟩)
      (s' := ⟨init, initNbrs adj init (uniqueSorted (arrayList init)), st, rng⟩)
      ⟨rfl, rfl, rfl, initNbrs_ok adj init, initNbrs_ok adj init, hc⟩
      (fun r hr => by rwa [mem_uniqueSorted, mem_arrayList] at hr)
    revert this
    cases azpOuter ops adj (uniqueSorted (arrayList init)) fuel fuel none (ops.objVal st)
        ⟨init, initNbrs adj init (uniqueSorted (arrayList init)), st, rng⟩ <;>
      cases azpOuter ops adj' (uniqueSorted (arrayList init)) fuel fuel none (ops.objVal st)
        ⟨init, initNbrs adj init (uniqueSorted (arrayList init)), st, rng⟩ <;> intro this
    · have e : LoopCorr adj _ _ := this
      simp only [Res.bind_ok, e.labels, e.strat, e.rng]
    all_goals first
      | exact this.elim
      | rfl
      | (have e := this; simp only [Rel] at e; subst e; rfl)

end Azp

/-! ### The tabu searches -/

section Tabu
variable {σ ρ : Type} {k : Nat} {adj adj' : Adj k} (h : OffDiag adj adj') (ops : StratOps σ k)
  (obj : Objective ρ) (attr : Fin k → ρ)
include h

theorem possibleMoves_off (L : Labels k) (tabu : Tabu k) :
    possibleMoves adj L tabu = possibleMoves adj' L tabu := by
  unfold possibleMoves
  congr 1
  funext area
  rw [h.subWo]
  congr 2
  unfold neighbors
  rw [List.filter_filter, List.filter_filter]
  refine List.filter_congr fun v _ => ?_
  by_cases hv : area = v
  · subst hv; simp
  · rw [h area v hv]

theorem tryMove_off (m : Move k) (s : TabuState σ k) : tryMove ops adj m s = tryMove ops adj' m s := by
  unfold tryMove tabuMakeMove
  simp only [h.booleanAssertFeasible]

theorem basicRound_off (s : TabuState σ k) :
    basicRound ops obj attr adj s = basicRound ops obj attr adj' s := by
  unfold basicRound basicElse aspiration
  simp only [possibleMoves_off h, tryMove_off h]

theorem basicLoop_off (reps : Int) (fuel : Nat) : ∀ s : TabuState σ k,
    basicLoop ops obj attr adj reps fuel s = basicLoop ops obj attr adj' reps fuel s := by
  induction fuel with
  | zero => intro s; rfl
  | succ fuel ih =>
    intro s
    unfold basicLoop
    simp only [basicRound_off h, ih]

theorem basicComponent_off (len : Option Nat) (reps : Int) (fuel : Nat) (init : Labels k) (st : σ)
    (rng : Rng) : basicComponent ops obj attr adj len reps fuel init st rng =
      basicComponent ops obj attr adj' len reps fuel init st rng := by
  unfold basicComponent
  simp only [basicLoop_off h]

theorem randomMoves_off (p : Nat) : ∀ (moves : List (Move k)) (s : TabuState σ k),
    randomMoves ops adj p moves s = randomMoves ops adj' p moves s := by
  induction p with
  | zero => intro moves s; rfl
  | succ p ih =>
    intro moves s
    unfold randomMoves
    simp only [tryMove_off h, ih]

theorem reactRound_off (k1 k2 : Int) (avg : ℚ) (s : TabuState σ k) :
    reactRound ops obj attr adj k1 k2 avg s = reactRound ops obj attr adj' k1 k2 avg s := by
  unfold reactRound
  simp only [possibleMoves_off h, tryMove_off h, randomMoves_off h]

theorem reactLoop_off (k1 k2 : Int) (avg : ℚ) (it : Nat) : ∀ (start : Option ℚ)
    (last : Option LastStep) (s : TabuState σ k),
    reactLoop ops obj attr adj k1 k2 avg it start last s =
      reactLoop ops obj attr adj' k1 k2 avg it start last s := by
  induction it with
  | zero => intro start last s; rfl
  | succ it ih =>
    intro start last s
    unfold reactLoop
    simp only [reactRound_off h, ih]

theorem reactComponentList_off (maxIt : Nat) (k1 k2 : Int) (init : Labels k) (self : ReactObj σ) :
    reactComponentList ops obj attr adj maxIt k1 k2 init self =
      reactComponentList ops obj attr adj' maxIt k1 k2 init self := by
  unfold reactComponentList
  simp only [reactLoop_off h]

end Tabu

/-! ### `fit` -/

section Fit
variable {σ ρ : Type} {n : Nat} {adj adj' : Adj n}

/-- The loop over the components, for a component routine that does not look at the diagonal if it is
given contiguous regions. -/
theorem fitLoop_off (attr : Fin n → ρ) {comp : CompFn σ n ρ}
    (hcomp : ∀ (idx : List (Fin n)) (init : Labels idx.length) at' st rng, idx.Nodup →
      AllContiguous (subAdj adj idx) init →
      comp idx (subAdj adj idx) init at' st rng = comp idx (subAdj adj' idx) init at' st rng)
    {gen : Gen n} (hgen : ∀ s ∈ gen, ∀ r y r', s r = .ok (.array y, r') →
      ∃ (lab : Labels n) (c : Nat), AllContiguous adj lab ∧ y = compArray adj lab c) :
    ∀ (L : Labels n) (st : σ) (rng : Rng),
      fitLoop adj attr comp gen L st rng = fitLoop adj' attr comp gen L st rng := by
  induction gen with
  | nil => intro L st rng; rfl
  | cons s gen ih =>
    intro L st rng
    unfold fitLoop
    cases hs : s rng with
    | raise e => rfl
    | timeout => rfl
    | ok x =>
      obtain ⟨y, rng'⟩ := x
      cases y with
      | dict => rfl
      | array y =>
        simp only [Res.bind_ok]
        obtain ⟨init, c, hc, rfl⟩ := hgen s (by simp) _ _ _ hs
        have hstep : fitStep adj attr comp (compArray adj init c) L st rng' =
            fitStep adj' attr comp (compArray adj init c) L st rng' := by
          unfold fitStep
          have hcont := comp_contiguous hc c
          have he' : (fun i => compArray adj init c ((shown (compArray adj init c)).get i)) =
              fun i => init ((shown (compArray adj init c)).get i) := by
            funext i
            have hi := mem_shown.1 (List.get_mem (shown (compArray adj init c)) i)
            have := (compArray_ne.1 hi).1
            change (if compLabels adj ((shown (compArray adj init c)).get i) = c
              then _ else _) = _
            rw [if_pos this]
          rw [← he'] at hcont
          have := hcomp (shown (compArray adj init c)) _
            (fun i => attr ((shown (compArray adj init c)).get i)) st rng' (shown_nodup _) hcont
          unfold shown at this
          dsimp only
          rw [this]
        rw [hstep]
        simp only [ih fun s hs => hgen s (List.mem_cons_of_mem _ hs)]

/-- `fit` from given labels. -/
theorem fitWith_off (h : OffDiag adj adj') (o o' : MstOrder) (attr : Fin n → ρ) (comp : CompFn σ n ρ)
    (hcomp : ∀ (idx : List (Fin n)) (init : Labels idx.length) at' st rng, idx.Nodup →
      AllContiguous (subAdj adj idx) init →
      comp idx (subAdj adj idx) init at' st rng = comp idx (subAdj adj' idx) init at' st rng)
    (p : Int) (init : Labels n) (st : σ) (rng : Rng) :
    fitWith o adj attr comp p (some init) st rng = fitWith o' adj' attr comp p (some init) st rng := by
  unfold fitWith
  dsimp only
  rw [← h.assertFeasible, ← h.separateComponents]
  cases hf : assertFeasible init adj (some p) with
  | raise e => rfl
  | timeout => rfl
  | ok u =>
    have hc : AllContiguous adj init := by
      unfold assertFeasible at hf
      dsimp only at hf
      split_ifs at hf
      rw [assertLoop_ok_iff] at hf; exact (allContiguous_iff _ _).1 hf
    rw [Res.bind_ok, Res.bind_ok]
    refine fitLoop_off attr hcomp ?_ _ st rng
    intro s hs r y r' hy
    obtain ⟨z, hz, rfl⟩ := List.mem_map.1 hs
    rw [separateComponents_eq] at hz
    obtain ⟨c, _, rfl⟩ := List.mem_map.1 hz
    simp only [Res.ok.injEq, Prod.mk.injEq, Yielded.array.injEq] at hy
    exact ⟨init, c, hc, hy.1.symm⟩

/-- The links between different areas are visited in the same order. -/
def SameLinks (o o' : MstOrder) (adj adj' : Adj n) : Prop :=
  ∀ idx : List (Fin n), idx.Nodup →
    (o.order (subAdj adj idx)).filter (fun e => decide (e.1 ≠ e.2)) =
      (o'.order (subAdj adj' idx)).filter fun e => decide (e.1 ≠ e.2)

/-- Row by row the links between different areas are visited in the same order. -/
theorem sameLinks_rowMajor (h : OffDiag adj adj') : SameLinks .rowMajor .rowMajor adj adj' := by
  intro idx hnd
  have hsub := h.sub hnd
  change (edgesOf _).filter _ = (edgesOf _).filter _
  unfold edgesOf
  rw [List.filter_flatMap, List.filter_flatMap]
  congr 1
  funext i
  rw [List.filter_map, List.filter_map, List.filter_filter, List.filter_filter]
  congr 1
  refine List.filter_congr fun j _ => ?_
  by_cases hij : i = j
  · subst hij; simp
  · rw [hsub i j hij]

/-- Kruskal's algorithm skips an area that is its own neighbor. -/
theorem kruskal_off {k : Nat} (es : List (Fin k × Fin k)) :
    kruskal es = kruskal (es.filter fun e => decide (e.1 ≠ e.2)) := by
  unfold kruskal
  generalize ((id, []) : (Fin k → Fin k) × List (Fin k × Fin k)) = st
  induction es generalizing st with
  | nil => rfl
  | cons e es ih =>
    by_cases he : e.1 = e.2
    · rw [List.filter_cons_of_neg (by simp [he]), List.foldl_cons, ← ih]
      congr 1
      unfold kruskalStep
      rw [if_pos (by rw [he])]
    · rw [List.filter_cons_of_pos (by simp [he]), List.foldl_cons, List.foldl_cons, ih]

theorem generateInitialSol_off (h : OffDiag adj adj') {o o' : MstOrder} (ho : SameLinks o o' adj adj')
    (p : Int) (r : Rng) : generateInitialSol o adj p r = generateInitialSol o' adj' p r := by
  have hdiv : ∀ c, divideComponent o adj c = divideComponent o' adj' c := by
    intro c
    funext k built r
    unfold divideComponent
    rw [← h.compLabels]
    have hm : o.mst (subAdj adj (whereEq (compLabels adj) c)) =
        o'.mst (subAdj adj' (whereEq (compLabels adj) c)) := by
      unfold MstOrder.mst
      rw [kruskal_off, kruskal_off (o'.order _),
        ho (whereEq (compLabels adj) c) (by unfold whereEq; exact (List.nodup_finRange n).filter _)]
    unfold randomlyDivide
    dsimp only
    rw [hm]
  have hsteps : ∀ (d : IntDict) (cs : List Nat) (built : Int),
      divideSteps o adj d cs built = divideSteps o' adj' d cs built := by
    intro d cs
    induction cs with
    | nil => intro built; rfl
    | cons c cs ih => intro built; simp only [divideSteps, ih, hdiv]
  unfold generateInitialSol
  simp only [hsteps, ← h.compLabels, ← h.nComponents]

/-- What the generator yields are components of a clustering into contiguous regions. -/
theorem generateInitialSol_yields (o : MstOrder) (adj : Adj n) (p : Int) (r : Rng) {gen : Gen n}
    {r₁ : Rng} (hg : generateInitialSol o adj p r = .ok (gen, r₁)) :
    ∀ s ∈ gen, ∀ r y r', s r = .ok (.array y, r') →
      ∃ (lab : Labels n) (c : Nat), AllContiguous adj lab ∧ y = compArray adj lab c := by
  intro s hs r2 y r3 hy
  by_cases hok : 0 < n ∧ p ≤ n ∧ p ≠ 1 ∧ (nComponents adj : Int) ≤ p
  · obtain ⟨hn, hp, hp1, hc⟩ := hok
    obtain ⟨gen', r', h1, h2, h3⟩ := generateInitialSol_spec o adj p r hn hp hp1 hc
    rw [h1] at hg
    simp only [Res.ok.injEq, Prod.mk.injEq] at hg
    obtain ⟨rfl, rfl⟩ := hg
    obtain ⟨l1, l2, rfl⟩ := List.append_of_mem hs
    have hex : ∀ l : Gen n, (∀ s ∈ l, ∀ r, ∃ y r', s r = .ok (.array y, r')) →
        ∃ ys, List.Forall₂ Yields l ys := by
      intro l
      induction l with
      | nil => intro _; exact ⟨[], .nil⟩
      | cons a l ih =>
        intro hl
        obtain ⟨ys, hys⟩ := ih fun s hs => hl s (List.mem_cons_of_mem _ hs)
        obtain ⟨z, r', hz⟩ := hl a (by simp) r
        exact ⟨z :: ys, .cons ⟨r, r', hz⟩ hys⟩
    obtain ⟨y1, hy1⟩ := hex l1 fun s hs => h2 s (by simp [hs])
    obtain ⟨y2, hy2⟩ := hex l2 fun s hs => h2 s (by simp [hs])
    obtain ⟨lab, hl, hcont, _⟩ := h3 (y1 ++ y :: y2) (List.rel_append hy1 (.cons ⟨_, _, hy⟩ hy2))
    rw [separateComponents_eq] at hl
    have : y ∈ y1 ++ y :: y2 := by simp
    rw [hl] at this
    obtain ⟨c, _, rfl⟩ := List.mem_map.1 this
    exact ⟨lab, c, hcont, rfl⟩
  · exfalso
    unfold generateInitialSol at hg
    split_ifs at hg with g1 g2 g3 g4
    · simp only [Res.ok.injEq, Prod.mk.injEq] at hg
      rw [← hg.1] at hs
      rw [List.mem_singleton] at hs
      subst hs
      simp at hy
    · exact hok ⟨by omega, by omega, g3, by omega⟩

/-- `fit` from given labels or from scratch. -/
theorem fitWith_off_all (h : OffDiag adj adj') {o o' : MstOrder} (ho : SameLinks o o' adj adj')
    (attr : Fin n → ρ) (comp : CompFn σ n ρ)
    (hcomp : ∀ (idx : List (Fin n)) (init : Labels idx.length) at' st rng, idx.Nodup →
      AllContiguous (subAdj adj idx) init →
      comp idx (subAdj adj idx) init at' st rng = comp idx (subAdj adj' idx) init at' st rng)
    (p : Int) (initial : Option (Labels n)) (st : σ) (rng : Rng) :
    fitWith o adj attr comp p initial st rng = fitWith o' adj' attr comp p initial st rng := by
  cases initial with
  | some init => exact fitWith_off h o o' attr comp hcomp p init st rng
  | none =>
    unfold fitWith
    dsimp only
    rw [← generateInitialSol_off h ho]
    cases hg : generateInitialSol o adj p rng with
    | raise e => rfl
    | timeout => rfl
    | ok x =>
      obtain ⟨gen, r₁⟩ := x
      exact fitLoop_off attr hcomp (generateInitialSol_yields o adj p rng hg) _ st r₁

end Fit

end Region
