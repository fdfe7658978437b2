import Verif.Lemmas.IslandMaps
import Verif.Props.Azp
import Verif.Props.Objective
/-
Property theorems C103, C104: all results the automatic zoning procedure can have, and the numbering of the
areas.
-/
namespace Region.Props

open Region Spec Res

/-- C103 for one component and any objective with exact updates: the routine can end with exactly the
clusterings the described procedure can end with.  (The number of observed iterations is one from which on
the routine never is still running, see C24.) -/
theorem c103_component {n q k : Nat} {ρ : Type} (expf : ℚ → ℚ) {obj : Objective ρ} (he : obj.Exact)
    (ht : obj.Total) (idx : Fin k → Fin n) {adj : Adj k} (hs : Symmetric adj) (hk : 0 < k)
    {init : Labels k} (hc : AllContiguous adj init) (attr : Fin k → ρ) {fuel : Nat}
    (hf : k + numRegions init ^ k < fuel) (L : Labels k) :
    (∃ rng st rng', azpComponent (Strat.ops (q := q) expf idx attr obj) adj fuel init
      (.azp (obj.call init attr)) rng = .ok (L, st, rng')) ↔
      Zoned adj (fun l => obj.call l attr) init L := by
  have hd := azp_decides (q := q) (expf := expf) (idx := idx) (attr := attr) he ht adj
  have hM : AzpTracks n q obj attr init (.azp (obj.call init attr)) := rfl
  constructor
  · rintro ⟨rng, st, rng', h⟩
    exact (component_sound _ hd hs azp_objVal hk hc hM h).1
  · intro h
    obtain ⟨st, _, h⟩ := component_complete (fuel := fuel) _ hd hs azp_objVal hk hc hM (by omega) (fun rng => by
      have := azp_component (q := q) expf idx he ht hs hk hc attr fuel rng
      intro hto
      rw [hto] at this
      exact absurd this (by change ¬ fuel ≤ _; omega)) h
    obtain ⟨r0, h⟩ := h fun _ => 0
    exact ⟨r0, st, fun _ => 0, h⟩

/-- The step of the loop over the components, for a strategy that decides by `allowed`. -/
theorem exactStep_of {n q : Nat} {ρ : Type} (expf : ℚ → ℚ) {obj : Objective ρ} (he : obj.Exact)
    (ht : obj.Total) {adj : Adj n} (hs : Symmetric adj) {init : Labels n} (hc : AllContiguous adj init)
    (hm : ∀ v, ∃ u, SameIsland adj u v ∧ init u ≠ -1) (attr : Fin n → ρ) {fuel : Nat}
    (hf : n + n ^ n < fuel) {S : Strat n q → Prop}
    {allowed : (idx : List (Fin n)) → Labels idx.length → Fin idx.length → Int → Prop}
    {value : (idx : List (Fin n)) → Labels idx.length → ℚ}
    {M : (idx : List (Fin n)) → Labels idx.length → Strat n q → Prop}
    (hd : ∀ idx : List (Fin n), Decides (Strat.ops (q := q) expf (fun i => idx.get i)
      (fun i => attr (idx.get i)) obj) (subAdj adj idx) (allowed idx) (M idx))
    (hv : ∀ idx L st, M idx L st → st.objVal = value idx L)
    (hstart : ∀ (idx : List (Fin n)) st, S st → M idx (fun i => init (idx.get i))
      (st.start (obj.call (fun i => init (idx.get i)) fun i => attr (idx.get i))))
    (hend : ∀ idx L st, M idx L st → S st) (c : Nat) (hlt : c < nComponents adj) :
    ExactStep adj attr (azpComp (q := q) expf obj fuel) S
      (fun idx => Rounds (subAdj adj idx) (allowed idx) (value idx)) (compArray adj init c) := by
  have hne : shown (compArray adj init c) ≠ [] := by
    obtain ⟨w, hw⟩ := compLabels_surj adj hlt
    obtain ⟨u, hu1, hu2⟩ := hm w
    intro h
    have : u ∈ shown (compArray adj init c) := by
      rw [mem_shown, compArray_ne]
      exact ⟨by rw [← hw]; exact (compLabels_eq_iff adj _ _).2 hu1, hu2⟩
    rw [h] at this; cases this
  have hcont := comp_contiguous hc c
  have hnd := shown_nodup (compArray adj init c)
  have hget := compArray_get adj init c
  constructor
  · rintro st rng out st' rng' hS h
    rw [hget] at h ⊢
    have := component_sound _ (hd _) (subAdj_symm hs _) (fun h => hv _ _ _ h)
      (List.length_pos_iff.2 hne) hcont (hstart _ st hS) h
    exact ⟨this.1, hend _ _ _ this.2⟩
  · rintro st out hS h
    rw [hget] at h ⊢
    revert out
    generalize shown (compArray adj init c) = idx at hcont hne hnd ⊢
    intro out h
    have hlen : idx.length ≤ n := by
      have := hnd.length_le_card
      simpa using this
    have hnum : numRegions (fun i => init (idx.get i)) ≤ idx.length := by
      unfold numRegions
      exact Finset.card_image_le.trans (by simp)
    have hpow : numRegions (fun i => init (idx.get i)) ^ idx.length ≤ n ^ n := by
      have h1 : 0 < n := lt_of_lt_of_le (List.length_pos_iff.2 hne) hlen
      exact (Nat.pow_le_pow_left (hnum.trans hlen) _).trans (Nat.pow_le_pow_right h1 hlen)
    obtain ⟨st', h1, h2⟩ := component_complete _ (hd idx) (subAdj_symm hs _) (fun h => hv _ _ _ h)
      (List.length_pos_iff.2 hne) hcont (hstart idx st hS) (fuel := fuel) (by omega)
      (fun rng => by
        obtain ⟨out, ho⟩ := c24_component_terminates (q := q) expf he ht idx hne
          (subAdj adj idx) (fun i => init (idx.get i)) (fun i => attr (idx.get i)) fuel (by omega) st rng
        unfold azpComp at ho
        intro hto
        exact absurd (hto.symm.trans ho) (by simp)) h
    exact ⟨st', hend _ _ _ h1, h2⟩

theorem azp_exactStep {n q : Nat} {ρ : Type} (expf : ℚ → ℚ) {obj : Objective ρ} (he : obj.Exact)
    (ht : obj.Total) {adj : Adj n} (hs : Symmetric adj) {init : Labels n} (hc : AllContiguous adj init)
    (hm : ∀ v, ∃ u, SameIsland adj u v ∧ init u ≠ -1) (attr : Fin n → ρ) {fuel : Nat}
    (hf : n + n ^ n < fuel) (c : Nat) (hlt : c < nComponents adj) :
    ExactStep adj attr (azpComp (q := q) expf obj fuel) (fun st => ∃ v, st = .azp v)
      (fun idx => Zoned (subAdj adj idx) fun l => obj.call l fun i => attr (idx.get i))
      (compArray adj init c) :=
  exactStep_of (S := fun st => ∃ v, st = .azp v)
    (value := fun idx l => obj.call l fun i => attr (idx.get i))
    (M := fun idx => AzpTracks n q obj fun i => attr (idx.get i)) expf he ht hs hc hm attr hf
    (fun _ => azp_decides he ht _) (fun _ _ _ h => by unfold AzpTracks at h; subst h; rfl)
    (fun _ _ ⟨_, h⟩ => by rw [h]; rfl) (fun _ _ _ h => ⟨_, h⟩) c hlt

/-- The areas of an island, once as positions and once as areas. -/
theorem zoned_on_island {n : Nat} {ρ : Type} {metric : ρ → ρ → ℚ} (hsym : ∀ x y, metric x y = metric y x)
    {adj : Adj n} (attr : Fin n → ρ) {init : Labels n} (hm : ∀ v, init v ≠ -1) {L : Labels n} (u : Fin n) :
    Zoned (subAdj adj (shown (compArray adj init (compLabels adj u))))
    (fun l => (pairwise metric).call l
      fun i => attr ((shown (compArray adj init (compLabels adj u))).get i))
    (fun i => init ((shown (compArray adj init (compLabels adj u))).get i))
    (fun i => L ((shown (compArray adj init (compLabels adj u))).get i)) ↔
    Zoned (fun a b : Island adj u => adj a b)
      (dissimilarity fun a b : Island adj u => metric (attr a) (attr b))
      (onIsland adj u init) (onIsland adj u L) := by
  refine zoned_comp (islandEquiv adj init hm u) (fun a b => adj a b) (fun l l' => ?_)
    (onIsland adj u init) (onIsland adj u L)
  rw [← dissimilarity_comp (islandEquiv adj init hm u), ← dissimilarity_comp (islandEquiv adj init hm u),
    dissimilarity_fin (fun a b => hsym _ _), dissimilarity_fin (fun a b => hsym _ _)]
  change pairwiseCall metric _ _ < pairwiseCall metric _ _ ↔ _
  rw [pairwiseCall_eq, pairwiseCall_eq]
  simp only [islandEquiv_apply]
  constructor <;> intro h <;> linarith

/-- C103: from a given start, `fit` can end with exactly the clusterings which on every island are results
of the described procedure for that island, with the dissimilarities within the regions as the value. -/
theorem c103_fit {n q : Nat} {ρ : Type} (o : MstOrder) (expf : ℚ → ℚ) {metric : ρ → ρ → ℚ}
    (hsym : ∀ x y, metric x y = metric y x) (h0 : ∀ x, metric x x = 0) {adj : Adj n} (hs : Symmetric adj)
    (attr : Fin n → ρ) {p : Int} {init : Labels n} (hc : AllContiguous adj init)
    (hp : (numRegions init : Int) = p) (hm : ∀ v, init v ≠ -1) {fuel : Nat} (hf : n + n ^ n < fuel)
    (v : ℚ) (L : Labels n) :
    (∃ rng st rng', azpFit (q := q) o expf (pairwise metric) fuel adj attr p (some init) (.azp v) rng =
      .ok (L, st, rng')) ↔
      ∀ u, Zoned (fun a b : Island adj u => adj a b)
        (dissimilarity fun a b : Island adj u => metric (attr a) (attr b))
        (onIsland adj u init) (onIsland adj u L) := by
  unfold azpFit
  rw [fitWith_exact o hc hp (azp_exactStep expf (pairwise_exact hsym h0) (pairwise_total metric) hs hc
    (fun v => ⟨v, .refl, hm v⟩) attr hf) ⟨v, rfl⟩]
  have key := zoned_on_island hsym (adj := adj) attr hm (L := L)
  constructor
  · rintro ⟨_, h⟩ u
    exact (key u).1 (h _ (compLabels_lt adj u))
  · intro h
    refine ⟨fun v hv => absurd hv (hm v), fun c hlt => ?_⟩
    obtain ⟨u, rfl⟩ := compLabels_surj adj hlt
    exact (key u).2 (h u)

/-- What the Max-p decorator lets through when the dissimilarities are to be small. -/
def MaxpAllows {V Q : Type} [DecidableEq V] (d : V → V → ℚ) (spat : V → Q → ℚ) (thr : Q → ℚ) (L : V → Int)
    (a : V) (r : Int) : Prop :=
  Dispensable spat thr L a ∧ dissimilarity d (moved L a r) ≤ dissimilarity d L

/-- C103 for the local search of the Max-p heuristic, one component: exactly the results of a single pass. -/
theorem c103_maxp_component {n q k : Nat} {ρ : Type} (expf : ℚ → ℚ) {obj : Objective ρ} (he : obj.Exact)
    (ht : obj.Total) (idx : Fin k → Fin n) {adj : Adj k} (hs : Symmetric adj) (hk : 0 < k)
    {init : Labels k} (hc : AllContiguous adj init) (attr : Fin k → ρ) (spat : Fin n → Fin q → ℚ)
    (thr : Fin q → ℚ) {fuel : Nat} (hf : k + numRegions init ^ k < fuel) (L : Labels k) :
    (∃ rng st rng', azpComponent (Strat.ops expf idx attr obj) adj fuel init
      (.maxp spat thr (obj.call init attr) (.azp (obj.call init attr))) rng = .ok (L, st, rng')) ↔
      OnePass adj (fun L a r => Dispensable (fun i => spat (idx i)) thr L a ∧
        obj.call (moved L a r) attr ≤ obj.call L attr) init L := by
  have hd := maxp_decides (expf := expf) (idx := idx) (attr := attr) he ht adj spat thr
    (obj.call init attr)
  have hv : ∀ {L : Labels k} {st : Strat n q},
      st = .maxp spat thr (obj.call init attr) (.azp (obj.call L attr)) →
      (Strat.ops expf idx attr obj).objVal st = (fun _ => obj.call init attr) L := by
    rintro L st rfl; rfl
  rw [← rounds_const (v := obj.call init attr)]
  constructor
  · rintro ⟨rng, st, rng', h⟩
    exact (component_sound _ hd hs hv hk hc rfl h).1
  · intro h
    have hto : ∀ rng, azpComponent (Strat.ops expf idx attr obj) adj fuel init
        (.maxp spat thr (obj.call init attr) (.azp (obj.call init attr))) rng ≠ .timeout := by
      intro rng
      have := azpComponent_post hs (Strat.stratOk (q := q) expf idx attr he ht adj
        (obj.call init attr) true) fuel init hk hc
        ((Strat.maxp spat thr 0 (.azp 0)).start (obj.call init attr))
        ⟨Strat.tracks_start (fun l => obj.call l attr) init _, Strat.isMaxp_start _ _⟩
        (fun _ => obj.call init attr)
        (fun _ => ⟨hf, fun L st' h => by
          have := Strat.tracks_objVal h.1
          rw [h.2, if_pos rfl] at this; exact this⟩) rng
      obtain ⟨a, h, _⟩ := this.total
      intro hto
      exact absurd (hto.symm.trans h) (by simp)
    obtain ⟨st, _, h⟩ := component_complete (fuel := fuel) _ hd hs hv hk hc rfl (by omega) hto h
    obtain ⟨r0, h⟩ := h fun _ => 0
    exact ⟨r0, st, fun _ => 0, h⟩

/-- One pass over the areas of an island, once as positions and once as areas. -/
theorem onePass_on_island {n q : Nat} {ρ : Type} {metric : ρ → ρ → ℚ} (hsym : ∀ x y, metric x y = metric y x)
    {adj : Adj n} (attr : Fin n → ρ) {init : Labels n} (hm : ∀ v, init v ≠ -1) (spat : Fin n → Fin q → ℚ)
    (thr : Fin q → ℚ) {L : Labels n} (u : Fin n) :
    OnePass (subAdj adj (shown (compArray adj init (compLabels adj u))))
    (fun L a r => Dispensable
        (fun i => spat ((shown (compArray adj init (compLabels adj u))).get i)) thr L a ∧
      (pairwise metric).call (moved L a r)
        (fun i => attr ((shown (compArray adj init (compLabels adj u))).get i)) ≤
      (pairwise metric).call L
        (fun i => attr ((shown (compArray adj init (compLabels adj u))).get i)))
    (fun i => init ((shown (compArray adj init (compLabels adj u))).get i))
    (fun i => L ((shown (compArray adj init (compLabels adj u))).get i)) ↔
    OnePass (fun a b : Island adj u => adj a b)
      (MaxpAllows (fun a b : Island adj u => metric (attr a) (attr b)) (onIsland adj u spat) thr)
      (onIsland adj u init) (onIsland adj u L) := by
  refine onePass_comp (islandEquiv adj init hm u) (adj := fun a b => adj a b) (fun l a r => ?_)
    (onIsland adj u init) (onIsland adj u L)
  unfold MaxpAllows
  rw [← dispensable_comp (islandEquiv adj init hm u)]
  refine and_congr Iff.rfl ?_
  rw [← dissimilarity_comp (islandEquiv adj init hm u), ← dissimilarity_comp (islandEquiv adj init hm u),
    dissimilarity_fin (fun a b => hsym _ _), dissimilarity_fin (fun a b => hsym _ _), moved_comp]
  change pairwiseCall metric _ _ ≤ pairwiseCall metric _ _ ↔ _
  rw [pairwiseCall_eq, pairwiseCall_eq]
  simp only [islandEquiv_apply]
  constructor <;> intro h <;> linarith

/-- C103 for the local search of the Max-p heuristic: on every island exactly the results of a single pass
in which areas that can be spared move to neighbouring regions without raising the dissimilarities. -/
theorem c103_maxp_fit {n q : Nat} {ρ : Type} (o : MstOrder) (expf : ℚ → ℚ) {metric : ρ → ρ → ℚ}
    (hsym : ∀ x y, metric x y = metric y x) (h0 : ∀ x, metric x x = 0) {adj : Adj n} (hs : Symmetric adj)
    (attr : Fin n → ρ) {p : Int} {init : Labels n} (hc : AllContiguous adj init)
    (hp : (numRegions init : Int) = p) (hm : ∀ v, init v ≠ -1) (spat : Fin n → Fin q → ℚ)
    (thr : Fin q → ℚ) {fuel : Nat} (hf : n + n ^ n < fuel) (v w : ℚ) (L : Labels n) :
    (∃ rng st rng', azpFit o expf (pairwise metric) fuel adj attr p (some init)
      (.maxp spat thr v (.azp w)) rng = .ok (L, st, rng')) ↔
      ∀ u, OnePass (fun a b : Island adj u => adj a b)
        (MaxpAllows (fun a b : Island adj u => metric (attr a) (attr b)) (onIsland adj u spat) thr)
        (onIsland adj u init) (onIsland adj u L) := by
  unfold azpFit
  rw [fitWith_exact o hc hp (exactStep_of (S := fun st => ∃ v w, st = .maxp spat thr v (.azp w))
    (value := fun idx _ => (pairwise metric).call (fun i => init (idx.get i)) fun i => attr (idx.get i))
    (M := fun idx L st => st = .maxp spat thr
      ((pairwise metric).call (fun i => init (idx.get i)) fun i => attr (idx.get i))
      (.azp ((pairwise metric).call L fun i => attr (idx.get i))))
    expf (pairwise_exact hsym h0) (pairwise_total metric) hs hc (fun v => ⟨v, .refl, hm v⟩) attr hf
    (fun _ => maxp_decides (pairwise_exact hsym h0) (pairwise_total metric) _ _ _ _)
    (fun _ _ _ h => by subst h; rfl) (fun _ _ ⟨_, _, h⟩ => by rw [h]; rfl) (fun _ _ _ h => ⟨_, _, h⟩))
    ⟨v, w, rfl⟩]
  simp only [rounds_const]
  have key := onePass_on_island hsym (adj := adj) attr hm spat thr (L := L)
  constructor
  · rintro ⟨_, h⟩ u
    exact (key u).1 (h _ (compLabels_lt adj u))
  · intro h
    refine ⟨fun v hv => absurd hv (hm v), fun c hlt => ?_⟩
    obtain ⟨u, rfl⟩ := compLabels_surj adj hlt
    exact (key u).2 (h u)

/-- C104: renumbering the areas renumbers the possible results, and nothing else. -/
theorem c104_azp {n q : Nat} {ρ : Type} (o : MstOrder) (expf : ℚ → ℚ) {metric : ρ → ρ → ℚ}
    (hsym : ∀ x y, metric x y = metric y x) (h0 : ∀ x, metric x x = 0) {adj : Adj n} (hs : Symmetric adj)
    (attr : Fin n → ρ) {p : Int} {init : Labels n} (hc : AllContiguous adj init)
    (hp : (numRegions init : Int) = p) (hm : ∀ v, init v ≠ -1) {fuel : Nat} (hf : n + n ^ n < fuel)
    (e : Equiv.Perm (Fin n)) (v : ℚ) (L : Labels n) :
    (∃ rng st rng', azpFit (q := q) o expf (pairwise metric) fuel (fun a b => adj (e a) (e b)) (attr ∘ e) p
      (some (init ∘ e)) (.azp v) rng = .ok (L ∘ e, st, rng')) ↔
    ∃ rng st rng', azpFit (q := q) o expf (pairwise metric) fuel adj attr p (some init) (.azp v) rng =
      .ok (L, st, rng') := by
  rw [c103_fit o expf hsym h0 hs attr hc hp hm hf, c103_fit o expf hsym h0 (fun a b => hs _ _) _
    ((allContiguous_comp e adj init).2 hc) (by
      rw [← hp]
      unfold numRegions
      congr 2
      ext x
      simp only [Finset.mem_image, Finset.mem_univ, true_and, Function.comp]
      exact ⟨fun ⟨a, h⟩ => ⟨e a, h⟩, fun ⟨a, h⟩ => ⟨e.symm a, by simpa using h⟩⟩)
    (fun v => hm _) hf]
  have key : ∀ u, Zoned (fun a b : Island (fun a b => adj (e a) (e b)) u => adj (e a) (e b))
        (dissimilarity fun a b : Island (fun a b => adj (e a) (e b)) u => metric (attr (e a)) (attr (e b)))
        (onIsland _ u (init ∘ e)) (onIsland _ u (L ∘ e)) ↔
      Zoned (fun a b : Island adj (e u) => adj a b)
        (dissimilarity fun a b : Island adj (e u) => metric (attr a) (attr b))
        (onIsland adj (e u) init) (onIsland adj (e u) L) := by
    intro u
    let f : Island (fun a b => adj (e a) (e b)) u ≃ Island adj (e u) :=
      e.subtypeEquiv fun a => sameIsland_comp e adj u a
    refine zoned_comp f (fun a b => adj a b) (fun l l' => ?_) (onIsland adj (e u) init)
      (onIsland adj (e u) L)
    rw [← dissimilarity_comp f, ← dissimilarity_comp f]
    rfl
  constructor
  · intro h u
    have := (key (e.symm u)).1 (h _)
    rwa [Equiv.apply_symm_apply] at this
  · intro h u
    exact (key u).2 (h _)

/-- C104: `is_connected`, … -/
theorem c104_is_connected {n : Nat} (adj : Adj n) (e : Equiv.Perm (Fin n)) :
    isConnected (fun a b => adj (e a) (e b)) = isConnected adj := by
  rw [Bool.eq_iff_iff, c01_is_connected, c01_is_connected]
  refine and_congr Iff.rfl ⟨fun h a b => ?_, fun h a b => (sameIsland_comp e adj a b).2 (h _ _)⟩
  have := (sameIsland_comp e adj (e.symm a) (e.symm b)).1 (h _ _)
  simpa using this

theorem numRegions_perm {n : Nat} (L : Labels n) (e : Equiv.Perm (Fin n)) :
    numRegions (L ∘ e) = numRegions L := by
  unfold numRegions
  congr 1
  ext x
  simp only [Finset.mem_image, Finset.mem_univ, true_and, Function.comp]
  exact ⟨fun ⟨a, h⟩ => ⟨e a, h⟩, fun ⟨a, h⟩ => ⟨e.symm a, by simpa using h⟩⟩

/-- … `assert_feasible` … -/
theorem c104_assert_feasible {n : Nat} (adj : Adj n) (L : Labels n) (p : Option Int)
    (e : Equiv.Perm (Fin n)) :
    assertFeasible (L ∘ e) (fun a b => adj (e a) (e b)) p = .ok () ↔ assertFeasible L adj p = .ok () := by
  rw [c04_assert_feasible_ok, c04_assert_feasible_ok, allContiguous_comp e, numRegions_perm]

/-- … and the objective function do not depend on the numbering. -/
theorem c104_objective {n : Nat} {ρ : Type} {metric : ρ → ρ → ℚ} (hsym : ∀ x y, metric x y = metric y x)
    (attr : Fin n → ρ) (L : Labels n) (e : Equiv.Perm (Fin n)) :
    (pairwise metric).call (L ∘ e) (attr ∘ e) = (pairwise metric).call L attr := by
  change pairwiseCall metric _ _ = pairwiseCall metric _ _
  rw [pairwiseCall_eq, pairwiseCall_eq]
  have := dissimilarity_comp e (fun a b => metric (attr a) (attr b)) L
  rw [dissimilarity_fin fun a b => hsym _ _, dissimilarity_fin fun a b => hsym _ _] at this
  simp only [Function.comp] at this ⊢
  linarith

/-- Four areas around a lake. -/
def lake4 : Adj 4 := fun i j => decide ((i.val + 1) % 4 = j.val ∨ (j.val + 1) % 4 = i.val)

/-- The set of possible results is all that is invariant: with the same draws, numbering the areas
backwards leads to another clustering. -/
theorem c104_draws_matter :
    (∃ st rng', azpFit (q := 0) .rowMajor (fun _ => 0) (pairwise manhattan) 300 lake4
      (fun _ => (![0] : Row 1)) 2 (some ![0, 0, 1, 1]) (.azp 0) (fun _ => 0) =
        .ok (![1, 1, 0, 1], st, rng')) ∧
    (∃ st rng', azpFit (q := 0) .rowMajor (fun _ => 0) (pairwise manhattan) 300
      (fun a b => lake4 (Fin.revPerm a) (Fin.revPerm b)) ((fun _ => (![0] : Row 1)) ∘ Fin.revPerm) 2
      (some (![0, 0, 1, 1] ∘ Fin.revPerm)) (.azp 0) (fun _ => 0) = .ok (![1, 1, 1, 0], st, rng')) ∧
    (![1, 1, 0, 1] : Labels 4) ∘ Fin.revPerm ≠ ![1, 1, 1, 0] := by
  have key : ∀ (x : Res (Labels 4 × Strat 4 0 × Rng)) (L : Labels 4),
      (match x with | .ok p => decide (p.1 = L) | _ => false) = true → ∃ st rng', x = .ok (L, st, rng') := by
    rintro (⟨L', st, rng⟩ | _ | _) L h
    · simp only [decide_eq_true_eq] at h
      subst h; exact ⟨st, rng, rfl⟩
    · cases h
    · cases h
  exact ⟨key _ _ (by decide +kernel), key _ _ (by decide +kernel), by decide +kernel⟩

theorem lake4_start : AllContiguous lake4 (![0, 0, 1, 1] : Labels 4) :=
  ((c04_assert_feasible_ok ![0, 0, 1, 1] lake4 none).1 (by decide +kernel)).1

/-- The hypotheses are met, and there are several results: the mirror image of the one above is possible,
too. -/
example : (∃ rng st rng', azpFit (q := 0) .rowMajor (fun _ => 0) (pairwise manhattan) 300 lake4
      (fun _ => (![0] : Row 1)) 2 (some ![0, 0, 1, 1]) (.azp 0) rng = .ok (![0, 1, 1, 1], st, rng')) := by
  obtain ⟨_, ⟨st, rng', h⟩, _⟩ := c104_draws_matter
  refine (c104_azp .rowMajor _ manhattan_comm manhattan_self (by unfold Spec.Symmetric; decide +kernel) _
    lake4_start (by decide +kernel) (by decide) (by norm_num) Fin.revPerm 0 _).1
    ⟨fun _ => 0, st, rng', ?_⟩
  rw [h]
  congr 2
  decide +kernel

/-- C103 at work: what is possible on the map around the lake. -/
example : Zoned (fun a b : Island lake4 0 => lake4 a b)
    (dissimilarity fun _ _ : Island lake4 0 => manhattan (![0] : Row 1) (![0] : Row 1))
    (onIsland lake4 0 ![0, 0, 1, 1]) (onIsland lake4 0 ![1, 1, 0, 1]) := by
  obtain ⟨⟨st, rng', h⟩, _⟩ := c104_draws_matter
  exact (c103_fit .rowMajor _ manhattan_comm manhattan_self (by unfold Spec.Symmetric; decide +kernel) _
    lake4_start (by decide +kernel) (by decide) (by norm_num) 0 _).1 ⟨_, st, rng', h⟩ 0

/-- The hypotheses of the theorems about the Max-p decorator are met by the same map; every area counts 1
and every region needs 1. -/
example (L : Labels 4) := c103_maxp_fit .rowMajor (fun _ => 0) manhattan_comm manhattan_self
  (adj := lake4) (by unfold Spec.Symmetric; decide +kernel) (fun _ => (![0] : Row 1)) (p := 2) lake4_start
  (by decide +kernel) (by decide) (fun _ (_ : Fin 1) => (1 : ℚ)) (fun _ => 1) (fuel := 300)
  (by norm_num) 0 0 L

end Region.Props
