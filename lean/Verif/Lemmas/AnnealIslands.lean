import Mathlib.Data.List.NodupEquivFin
import Verif.Lemmas.AnnealFit
import Verif.Lemmas.IslandMaps
/-
Simulated annealing with all its possible results: maps with several islands.
-/
namespace Region

open Spec Props Res

/-! ### The counters do not matter to the moves -/

section Shift
variable {V : Type} [DecidableEq V] {adj : V → V → Bool} {value : (V → Int) → ℚ} {take leave : ℚ → Prop}

theorem hotGrown_shift {r : Int} {x y : Annealing V} (h : HotGrown adj value take leave r x y) :
    ∃ w m, y.worse = x.worse + w ∧ y.moved = (x.moved || m) ∧ ∀ w0 m0,
      HotGrown adj value take leave r ⟨x.labels, w0, m0⟩ ⟨y.labels, w0 + w, m0 || m⟩ := by
  induction h with
  | stop h => exact ⟨0, false, rfl, by simp, fun w0 m0 => by simpa using .stop h⟩
  | @better x y a ha hv _ ih =>
    obtain ⟨w, m, h1, h2, h3⟩ := ih
    refine ⟨w, true, h1, by simpa using h2, fun w0 m0 => .better ha hv ?_⟩
    simpa using h3 w0 true
  | @worse x y a ha hv ht _ ih =>
    obtain ⟨w, m, h1, h2, h3⟩ := ih
    refine ⟨w + 1, true, by rw [h1]; ring, by simpa using h2, fun w0 m0 => .worse ha hv ht ?_⟩
    have := h3 (w0 + 1) true
    simpa [show w0 + 1 + w = w0 + (w + 1) by ring] using this

theorem hotPassed_shift {rs : List Int} {x y : Annealing V} (h : HotPassed adj value take leave rs x y) :
    ∃ w m, y.worse = x.worse + w ∧ y.moved = (x.moved || m) ∧ ∀ w0 m0,
      HotPassed adj value take leave rs ⟨x.labels, w0, m0⟩ ⟨y.labels, w0 + w, m0 || m⟩ := by
  induction h with
  | nil => exact ⟨0, false, rfl, by simp, fun w0 m0 => by simpa using .nil⟩
  | cons h _ ih =>
    obtain ⟨w, m, h1, h2, h3⟩ := hotGrown_shift h
    obtain ⟨w', m', h1', h2', h3'⟩ := ih
    refine ⟨w + w', m || m', by rw [h1', h1, Nat.add_assoc], by rw [h2', h2, Bool.or_assoc], fun w0 m0 => ?_⟩
    refine .cons (h3 w0 m0) ?_
    rw [← Nat.add_assoc, ← Bool.or_assoc]
    exact h3' _ _

theorem hotRounds_shift {x y : Annealing V} (h : HotRounds adj value take leave x y) :
    ∃ w m, y.worse = x.worse + w ∧ y.moved = (x.moved || m) ∧ ∀ w0 m0,
      HotRounds adj value take leave ⟨x.labels, w0, m0⟩ ⟨y.labels, w0 + w, m0 || m⟩ := by
  induction h with
  | last hr h hv =>
    obtain ⟨w, m, h1, h2, h3⟩ := hotPassed_shift h
    exact ⟨w, m, h1, h2, fun w0 m0 => .last hr (h3 w0 m0) hv⟩
  | again hr h hv _ ih =>
    obtain ⟨w, m, h1, h2, h3⟩ := hotPassed_shift h
    obtain ⟨w', m', h1', h2', h3'⟩ := ih
    refine ⟨w + w', m || m', by rw [h1', h1, Nat.add_assoc], by rw [h2', h2, Bool.or_assoc], fun w0 m0 => ?_⟩
    refine .again hr (h3 w0 m0) hv ?_
    rw [← Nat.add_assoc, ← Bool.or_assoc]
    exact h3' _ _

end Shift

/-! ### The numbering of the areas does not matter -/

section Renumber
variable {V W : Type} (e : V ≃ W) [DecidableEq V] [DecidableEq W] {adj : W → W → Bool}
  {value : (W → Int) → ℚ} {value' : (V → Int) → ℚ} {take leave : ℚ → Prop}
  (hv : ∀ L : W → Int, value' (L ∘ e) = value L)
include hv

theorem hotGrown_comp {r : Int} {x y : Annealing W} (h : HotGrown adj value take leave r x y) :
    HotGrown (fun a b => adj (e a) (e b)) value' take leave r ⟨x.labels ∘ e, x.worse, x.moved⟩
      ⟨y.labels ∘ e, y.worse, y.moved⟩ := by
  induction h with
  | @stop x h =>
    refine .stop fun a ha => ?_
    dsimp only at ha ⊢
    rw [← moved_comp, hv, hv]
    exact h _ ((admissible_comp e adj x.labels a r).1 ha)
  | @better x y a ha hle _ ih =>
    have hm : moved (x.labels ∘ e) (e.symm a) r = moved x.labels a r ∘ e := by
      rw [← moved_comp]; simp
    refine .better (a := e.symm a) ?_ ?_ ?_
    · dsimp only; rw [admissible_comp]; simpa using ha
    · dsimp only; rw [hm, hv, hv]; exact hle
    · dsimp only; rw [hm]; exact ih
  | @worse x y a ha hle htake _ ih =>
    have hm : moved (x.labels ∘ e) (e.symm a) r = moved x.labels a r ∘ e := by
      rw [← moved_comp]; simp
    refine .worse (a := e.symm a) ?_ ?_ ?_ ?_
    · dsimp only; rw [admissible_comp]; simpa using ha
    · dsimp only; rw [hm, hv, hv]; exact hle
    · dsimp only; rw [hm, hv, hv]; exact htake
    · dsimp only; rw [hm]; exact ih

theorem hotPassed_comp {rs : List Int} {x y : Annealing W} (h : HotPassed adj value take leave rs x y) :
    HotPassed (fun a b => adj (e a) (e b)) value' take leave rs ⟨x.labels ∘ e, x.worse, x.moved⟩
      ⟨y.labels ∘ e, y.worse, y.moved⟩ := by
  induction h with
  | nil => exact .nil
  | cons h _ ih => exact .cons (hotGrown_comp e hv h) ih

theorem hotRounds_comp {x y : Annealing W} (h : HotRounds adj value take leave x y) :
    HotRounds (fun a b => adj (e a) (e b)) value' take leave ⟨x.labels ∘ e, x.worse, x.moved⟩
      ⟨y.labels ∘ e, y.worse, y.moved⟩ := by
  induction h with
  | last hr h hlt =>
    exact .last ((enumerates_comp e _ _).2 hr) (hotPassed_comp e hv h) (by dsimp only; rwa [hv, hv])
  | again hr h hlt _ ih =>
    exact .again ((enumerates_comp e _ _).2 hr) (hotPassed_comp e hv h) (by dsimp only; rwa [hv, hv]) ih

theorem hotRounds_comp_iff {L L' : W → Int} {w w' : Nat} {m m' : Bool} :
    HotRounds (fun a b => adj (e a) (e b)) value' take leave ⟨L ∘ e, w, m⟩ ⟨L' ∘ e, w', m'⟩ ↔
      HotRounds adj value take leave ⟨L, w, m⟩ ⟨L', w', m'⟩ := by
  have hce : ∀ L : V → Int, (L ∘ e.symm) ∘ e = L := fun L => by funext v; simp
  have hec : ∀ L : W → Int, (L ∘ e) ∘ e.symm = L := fun L => by funext v; simp
  refine ⟨fun h => ?_, fun h => hotRounds_comp e hv h⟩
  have := hotRounds_comp e.symm (value' := value) (fun L => by rw [← hv, hce]) h
  dsimp only at this
  rw [hec, hec] at this
  simpa using this

end Renumber

/-! ### One run of AZP inside the annealing -/

section Fit
variable {n : Nat} {ρ : Type} {expf : ℚ → ℚ} {obj : Objective ρ} {adj : Adj n} {attr : Fin n → ρ}
  {init : Labels n}

variable (expf obj adj attr init) in
/-- What happens on the island with number `c`. -/
def HotComp (t : ℚ) (c : Nat) (L : Labels n) (w : Nat) (m : Bool) : Prop :=
  HotRounds (subAdj adj (shown (compArray adj init c)))
    (fun l => obj.call l fun i => attr ((shown (compArray adj init c)).get i)) (MayTake expf t) (MayLeave expf t)
    ⟨fun i => init ((shown (compArray adj init c)).get i), 0, false⟩
    ⟨fun i => L ((shown (compArray adj init c)).get i), w, m⟩

theorem hotComp_congr {t : ℚ} {c : Nat} {L L' : Labels n} {w : Nat} {m : Bool}
    (h : ∀ v, compLabels adj v = c → L v = L' v) (hL : HotComp expf obj adj attr init t c L w m) :
    HotComp expf obj adj attr init t c L' w m := by
  unfold HotComp at hL ⊢
  have : (fun i => L' ((shown (compArray adj init c)).get i)) =
      fun i => L ((shown (compArray adj init c)).get i) := by
    funext i
    have hi := mem_shown.1 (List.get_mem (shown (compArray adj init c)) i)
    exact (h _ (compArray_ne.1 hi).1).symm
  rw [this]
  exact hL

theorem areas_ne (hfree : ∀ v, init v ≠ -1) {c : Nat} (hlt : c < nComponents adj) :
    shown (compArray adj init c) ≠ [] := by
  obtain ⟨w, hw⟩ := compLabels_surj adj hlt
  intro h
  have : w ∈ shown (compArray adj init c) := by
    rw [mem_shown, compArray_ne]
    exact ⟨hw, hfree w⟩
  rw [h] at this; cases this

section
variable (he : obj.Exact) (ht : obj.Total) (hs : Spec.Symmetric adj) (hc : AllContiguous adj init)
  (hfree : ∀ v, init v ≠ -1)
include he ht hs hc hfree

theorem hotLoop_sound {fuel term : Nat} {t : ℚ} : ∀ {cs : List Nat}, cs.Nodup →
    (∀ c ∈ cs, c < nComponents adj) → ∀ {L L' : Labels n} {w0 : Nat} {m0 : Bool} {v0 : ℚ} {st' : Strat n 0}
    {rng rng' : Rng}, fitLoop adj attr (azpComp expf obj fuel)
      ((cs.map (compArray adj init)).map fun y r => .ok (.array y, r)) L
      (.sa t term w0 v0 (decide (term ≤ w0)) m0) rng = .ok (L', st', rng') →
    (∀ v, compLabels adj v ∉ cs → L' v = L v) ∧ ∃ (w : Nat → Nat) (m : Nat → Bool) (v' : ℚ),
      (∀ c ∈ cs, HotComp expf obj adj attr init t c L' (w c) (m c)) ∧
      st' = .sa t term (w0 + (cs.map w).sum) v' (decide (term ≤ w0 + (cs.map w).sum)) (m0 || cs.any m) := by
  intro cs
  induction cs with
  | nil =>
    intro _ _ L L' w0 m0 v0 st' rng rng' h
    cases h
    exact ⟨fun _ _ => rfl, fun _ => 0, fun _ => false, v0, by simp, by simp⟩
  | cons c cs ih =>
    intro hnd hlt L L' w0 m0 v0 st' rng rng' h
    rw [List.map_cons, List.map_cons] at h
    unfold fitLoop at h
    rw [Res.bind_ok] at h
    dsimp only at h
    rw [Res.bind_eq_ok] at h
    obtain ⟨⟨L1, st1, rng1⟩, h1, h2⟩ := h
    unfold fitStep at h1
    dsimp only at h1
    rw [Res.bind_eq_ok] at h1
    obtain ⟨⟨out, st2, rng2⟩, h3, h4⟩ := h1
    cases h4
    have hne := areas_ne hfree (hlt c (by simp))
    have h3' : azpComp expf obj fuel (shown (compArray adj init c)) (subAdj adj (shown (compArray adj init c)))
        (fun i => compArray adj init c ((shown (compArray adj init c)).get i))
        (fun i => attr ((shown (compArray adj init c)).get i))
        (Strat.sa t term w0 v0 (decide (term ≤ w0)) m0 : Strat n 0) rng = .ok (out, st2, rng2) := h3
    rw [compArray_get] at h3'
    obtain ⟨y, hy, rfl, rfl⟩ := hot_component_sound (n := n) (q := 0) (t := t) (term := term)
      (idx := fun i => (shown (compArray adj init c)).get i) he ht (subAdj_symm hs _)
      (x := ⟨fun i => init ((shown (compArray adj init c)).get i), w0, m0⟩) (List.length_pos_iff.2 hne)
      (comp_contiguous hc c) h3'
    obtain ⟨dw, dm, e1, e2, e3⟩ := hotRounds_shift hy
    dsimp only at e1 e2 e3
    have hst : (SaAt n 0 (fun i => attr ((shown (compArray adj init c)).get i)) obj t term y : Strat n 0) =
        .sa t term (w0 + dw) (obj.call y.labels fun i => attr ((shown (compArray adj init c)).get i))
          (decide (term ≤ w0 + dw)) (m0 || dm) := by
      unfold SaAt
      rw [e1, e2]
    rw [hst] at h2
    rw [List.nodup_cons] at hnd
    obtain ⟨g1, w, m, v', g2, g3⟩ := ih hnd.2 (fun c h => hlt c (by simp [h])) h2
    have hw : ∀ {β : Type} (f : Nat → β) (b : β), cs.map (Function.update f c b) = cs.map f := by
      intro β f b
      refine List.map_congr_left fun c' h' => ?_
      rw [Function.update_of_ne]
      rintro rfl
      exact hnd.1 h'
    have hany : cs.any (Function.update m c dm) = cs.any m := by
      have hq : ∀ f : Nat → Bool, cs.any f = (cs.map f).any id := fun f => by rw [List.any_map]; rfl
      rw [hq, hq, hw]
    refine ⟨fun v hv => ?_, Function.update w c dw, Function.update m c dm, v', ?_, ?_⟩
    · rw [List.mem_cons, not_or] at hv
      rw [g1 v hv.2]
      exact scatter_not_mem _ _ (by
        intro hmem
        exact hv.1 (compArray_ne.1 (mem_shown.1 hmem)).1)
    · intro c' hc'
      rcases List.mem_cons.1 hc' with rfl | hcs
      · rw [Function.update_self, Function.update_self]
        have hz := e3 0 false
        rw [Nat.zero_add, Bool.false_or] at hz
        unfold HotComp
        have : (fun i => L' ((shown (compArray adj init c')).get i)) = y.labels := by
          funext i
          have hi := (compArray_ne.1 (mem_shown.1 (List.get_mem (shown (compArray adj init c')) i))).1
          rw [g1 _ (by rw [hi]; exact hnd.1)]
          exact scatter_mem (shown_nodup _) _ _ i
        rw [this]
        exact hz
      · have hcc : c' ≠ c := by rintro rfl; exact hnd.1 hcs
        rw [Function.update_of_ne hcc, Function.update_of_ne hcc]
        exact g2 c' hcs
    · rw [g3]
      simp only [List.map_cons, List.sum_cons, List.any_cons, Function.update_self, hw, hany, Nat.add_assoc,
        Bool.or_assoc]

theorem hotLoop_complete {fuel term : Nat} (hf : n + n ^ n < fuel) {t : ℚ} {L' : Labels n} {w : Nat → Nat}
    {m : Nat → Bool} : ∀ {cs : List Nat}, cs.Nodup →
    (∀ c ∈ cs, c < nComponents adj ∧ HotComp expf obj adj attr init t c L' (w c) (m c)) →
    ∀ (L : Labels n) (w0 : Nat) (m0 : Bool) (v0 : ℚ), ∃ v', ∀ r', ∃ r0,
      fitLoop adj attr (azpComp expf obj fuel)
        ((cs.map (compArray adj init)).map fun y r => .ok (.array y, r)) L
        (.sa t term w0 v0 (decide (term ≤ w0)) m0 : Strat n 0) r0 =
      .ok (fun v => if compLabels adj v ∈ cs then L' v else L v,
        .sa t term (w0 + (cs.map w).sum) v' (decide (term ≤ w0 + (cs.map w).sum)) (m0 || cs.any m), r') := by
  intro cs
  induction cs with
  | nil =>
    intro _ _ L w0 m0 v0
    exact ⟨v0, fun r' => ⟨r', by simp [fitLoop]⟩⟩
  | cons c cs ih =>
    intro hnd hall L w0 m0 v0
    rw [List.nodup_cons] at hnd
    obtain ⟨hlt, hz⟩ := hall c (by simp)
    have hne := areas_ne hfree hlt
    have hlen : (shown (compArray adj init c)).length ≤ n := by
      have := (shown_nodup (compArray adj init c)).length_le_card
      simpa using this
    have hnum : numRegions (fun i => init ((shown (compArray adj init c)).get i)) ≤
        (shown (compArray adj init c)).length := by
      unfold numRegions
      exact Finset.card_image_le.trans (by simp)
    have hpow : numRegions (fun i => init ((shown (compArray adj init c)).get i)) ^
        (shown (compArray adj init c)).length ≤ n ^ n := by
      have h1 : 0 < n := lt_of_lt_of_le (List.length_pos_iff.2 hne) hlen
      exact (Nat.pow_le_pow_left (hnum.trans hlen) _).trans (Nat.pow_le_pow_right h1 hlen)
    obtain ⟨dw, dm, e1, e2, e3⟩ := hotRounds_shift hz
    dsimp only at e1 e2 e3
    rw [Nat.zero_add] at e1
    rw [Bool.false_or] at e2
    subst e1 e2
    obtain ⟨v', h2⟩ := ih hnd.2 (fun c h => hall c (by simp [h]))
      (scatter (shown (compArray adj init c)) (fun i => L' ((shown (compArray adj init c)).get i)) L)
      (w0 + w c) (m0 || m c)
      (obj.call (fun i => L' ((shown (compArray adj init c)).get i))
        fun i => attr ((shown (compArray adj init c)).get i))
    refine ⟨v', fun r' => ?_⟩
    obtain ⟨r1, h2⟩ := h2 r'
    obtain ⟨r0, h1⟩ := hot_component_complete (n := n) (q := 0) (t := t) (term := term) (fuel := fuel)
      (idx := fun i => (shown (compArray adj init c)).get i) he ht (subAdj_symm hs _)
      (x := ⟨fun i => init ((shown (compArray adj init c)).get i), w0, m0⟩) (List.length_pos_iff.2 hne)
      (comp_contiguous hc c) (by omega) (fun rng hto => by
        obtain ⟨out, ho⟩ := c24_component_terminates (q := 0) expf he ht (shown (compArray adj init c)) hne
          (subAdj adj (shown (compArray adj init c))) (fun i => init ((shown (compArray adj init c)).get i))
          (fun i => attr ((shown (compArray adj init c)).get i)) fuel (by omega)
          (.sa t term w0 v0 (decide (term ≤ w0)) m0) rng
        exact absurd (hto.symm.trans ho) (by simp)) (e3 w0 m0) r1
    refine ⟨r0, ?_⟩
    rw [List.map_cons, List.map_cons]
    unfold fitLoop
    rw [Res.bind_ok]
    dsimp only
    have : fitStep adj attr (azpComp expf obj fuel) (compArray adj init c) L
        (.sa t term w0 v0 (decide (term ≤ w0)) m0 : Strat n 0) r0 =
        .ok (scatter (shown (compArray adj init c)) (fun i => L' ((shown (compArray adj init c)).get i)) L,
          .sa t term (w0 + w c) (obj.call (fun i => L' ((shown (compArray adj init c)).get i))
            fun i => attr ((shown (compArray adj init c)).get i)) (decide (term ≤ w0 + w c)) (m0 || m c), r1) := by
      unfold fitStep
      dsimp only
      have h1' : azpComp expf obj fuel (shown (compArray adj init c))
          (subAdj adj (shown (compArray adj init c)))
          (fun i => compArray adj init c ((shown (compArray adj init c)).get i))
          (fun i => attr ((shown (compArray adj init c)).get i))
          (Strat.sa t term w0 v0 (decide (term ≤ w0)) m0 : Strat n 0) r0 =
          .ok (fun i => L' ((shown (compArray adj init c)).get i),
            .sa t term (w0 + w c) (obj.call (fun i => L' ((shown (compArray adj init c)).get i))
              fun i => attr ((shown (compArray adj init c)).get i)) (decide (term ≤ w0 + w c)) (m0 || m c), r1) := by
        rw [compArray_get]; exact h1
      rw [show (List.finRange n).filter (fun i => decide (compArray adj init c i ≠ -1)) =
        shown (compArray adj init c) from rfl, h1']
      rfl
    rw [this, Res.bind_ok]
    dsimp only
    rw [h2]
    have hlab : (fun v => if compLabels adj v ∈ cs then L' v else
        scatter (shown (compArray adj init c)) (fun i => L' ((shown (compArray adj init c)).get i)) L v) =
        fun v => if compLabels adj v ∈ c :: cs then L' v else L v := by
      funext v
      by_cases hv : compLabels adj v ∈ cs
      · rw [if_pos hv, if_pos (by simp [hv])]
      · rw [if_neg hv]
        by_cases hvc : compLabels adj v = c
        · rw [if_pos (by simp [hvc])]
          obtain ⟨i, hi⟩ := List.get_of_mem (mem_shown.2 (compArray_ne.2 ⟨hvc, hfree v⟩))
          rw [← hi]
          exact scatter_mem (shown_nodup _) _ _ i
        · rw [if_neg (by simp [hvc, hv])]
          exact scatter_not_mem _ _ fun hmem => hvc (compArray_ne.1 (mem_shown.1 hmem)).1
    rw [hlab]
    simp only [List.map_cons, List.sum_cons, List.any_cons, Nat.add_assoc, Bool.or_assoc]

end

/-- One area of each island gives the numbers of the islands. -/
theorem oneOfEach_perm {us : List (Fin n)} (hus : OneOfEach adj us) :
    (us.map (compLabels adj)).Perm (List.range (nComponents adj)) := by
  refine (List.perm_ext_iff_of_nodup ?_ List.nodup_range).2 fun c => ?_
  · rw [List.Nodup, List.pairwise_map]
    exact hus.2.imp fun h e => h ((compLabels_eq_iff adj _ _).1 e)
  · rw [List.mem_map, List.mem_range]
    constructor
    · rintro ⟨u, _, rfl⟩; exact compLabels_lt adj u
    · intro h
      obtain ⟨v, rfl⟩ := compLabels_surj adj h
      obtain ⟨u, hu, huv⟩ := hus.1 v
      exact ⟨u, hu, (compLabels_eq_iff adj _ _).2 huv⟩

theorem oneOfEach_unique {us : List (Fin n)} (hus : OneOfEach adj us) {u u' : Fin n} (hu : u ∈ us)
    (hu' : u' ∈ us) (h : compLabels adj u = compLabels adj u') : u = u' := by
  by_contra hne
  have : Std.Symm fun a b : Fin n => ¬ SameIsland adj a b := ⟨fun _ _ h h' => h (sameIsland_symm h')⟩
  exact hus.2.forall hu hu' hne ((compLabels_eq_iff adj _ _).1 h)

section
variable {value : (u : Fin n) → (Island adj u → Int) → ℚ}

theorem hotComp_iff (hfree : ∀ v, init v ≠ -1)
    (hval : ∀ u (L : Island adj u → Int), obj.call (L ∘ islandEquiv adj init hfree u)
      (fun i => attr ((shown (compArray adj init (compLabels adj u))).get i)) = value u L) {t : ℚ} (u : Fin n)
    {L : Labels n} {w : Nat} {m : Bool} :
    HotComp expf obj adj attr init t (compLabels adj u) L w m ↔
      HotRounds (fun a b : Island adj u => adj a b) (value u) (MayTake expf t) (MayLeave expf t)
        ⟨onIsland adj u init, 0, false⟩ ⟨onIsland adj u L, w, m⟩ :=
  hotRounds_comp_iff (islandEquiv adj init hfree u) (adj := fun a b : Island adj u => adj a b) (hval u)
    (L := onIsland adj u init) (L' := onIsland adj u L)

end

/-- A run of AZP leads from one clustering AZP can be started with to another. -/
theorem azpFit_startable (o : MstOrder) (hs : Spec.Symmetric adj) {p fuel : Nat} {L L' : Labels n}
    {st st' : Strat n 0} {rng rng' : Rng} (h : Startable adj p L)
    (hrun : azpFit o expf obj fuel adj attr p (some L) st rng = .ok (L', st', rng')) : Startable adj p L' := by
  obtain ⟨_, h2, h3⟩ := c21_fit_keeps_feasible o hs attr
    (fun idx at' => Strat.ops expf (fun i => idx.get i) at' obj)
    (fun idx init at' st => st.start (obj.call init at')) fuel p L st rng hrun
  refine ⟨h2.1, h2.2, fun v hv => ?_⟩
  obtain ⟨u, hu⟩ := (h3 (-1)).1 ⟨v, hv⟩
  exact h.named u hu

section
variable (o : MstOrder) (he : obj.Exact) (ht : obj.Total) (hs : Spec.Symmetric adj)
  {value : (u : Fin n) → (Island adj u → Int) → ℚ}
  (hval : ∀ init (hfree : ∀ v, init v ≠ -1) u (L : Island adj u → Int),
    obj.call (L ∘ islandEquiv adj init hfree u)
      (fun i => attr ((shown (compArray adj init (compLabels adj u))).get i)) = value u L)
  {us : List (Fin n)} (hus : OneOfEach adj us)
include he ht hs hval hus

theorem islands_run_sound {p fuel : Nat} {t : ℚ} {term : Nat} {x : Annealing (Fin n)} {st : Strat n 0}
    {rng : Rng} {L : Labels n} {st' : Strat n 0} {rng' : Rng} (hx : Startable adj p x.labels)
    (hst : SaBetween t term x st)
    (hrun : azpFit o expf obj fuel adj attr p (some x.labels) st rng = .ok (L, st', rng')) :
    ∃ y, HotIslands adj value (MayTake expf t) (MayLeave expf t) us x y ∧ L = y.labels ∧
      SaBetween t term y st' ∧ Startable adj p y.labels := by
  have hnext := azpFit_startable o hs hx hrun
  obtain ⟨v0, rfl⟩ := hst
  unfold azpFit fitWith at hrun
  dsimp only at hrun
  rw [feasible_start hx.contiguous (by rw [hx.number]), Res.bind_ok, separateComponents_eq] at hrun
  obtain ⟨_, w, m, v', h1, h2⟩ := hotLoop_sound he ht hs hx.contiguous hx.named List.nodup_range
    (fun c hc => List.mem_range.1 hc) hrun
  have hperm := oneOfEach_perm hus
  have hsum : (us.map fun u => w (compLabels adj u)).sum = ((List.range (nComponents adj)).map w).sum := by
    rw [← (hperm.map w).sum_eq, List.map_map]
    rfl
  have hany : (us.any fun u => m (compLabels adj u)) = (List.range (nComponents adj)).any m := by
    rw [← hperm.any_eq, List.any_map]
    rfl
  refine ⟨⟨L, x.worse + (us.map fun u => w (compLabels adj u)).sum, x.moved || us.any fun u => m (compLabels adj u)⟩,
    ⟨fun u => w (compLabels adj u), fun u => m (compLabels adj u), fun u _ => ?_, rfl, rfl⟩, rfl,
    ⟨v', ?_⟩, hnext⟩
  · exact (hotComp_iff hx.named (hval _ hx.named) u).1 (h1 _ (List.mem_range.2 (compLabels_lt adj u)))
  · rw [h2]
    dsimp only
    rw [hsum, hany]

theorem islands_run_complete {p fuel : Nat} (hf : n + n ^ n < fuel) {t : ℚ} {term : Nat}
    {x y : Annealing (Fin n)} {st : Strat n 0} (hx : Startable adj p x.labels)
    (hst : SaBetween t term x st)
    (hR : HotIslands adj value (MayTake expf t) (MayLeave expf t) us x y) :
    ∃ st', SaBetween t term y st' ∧ Startable adj p y.labels ∧ ∀ r', ∃ r0,
      azpFit o expf obj fuel adj attr p (some x.labels) st r0 = .ok (y.labels, st', r') := by
  obtain ⟨v0, rfl⟩ := hst
  obtain ⟨w, m, h1, h2, h3⟩ := hR
  have hperm := oneOfEach_perm hus
  have hrep : ∀ c : Nat, ∃ u : Option (Fin n), c < nComponents adj → ∃ v, u = some v ∧ v ∈ us ∧ compLabels adj v = c := by
    intro c
    by_cases hc : c < nComponents adj
    · obtain ⟨u, hu, hu'⟩ := List.mem_map.1 (hperm.mem_iff.2 (List.mem_range.2 hc))
      exact ⟨some u, fun _ => ⟨u, rfl, hu, hu'⟩⟩
    · exact ⟨none, fun h => absurd h hc⟩
  choose rep hrep using hrep
  have hrepu : ∀ u ∈ us, rep (compLabels adj u) = some u := by
    intro u hu
    obtain ⟨v, e, hv, hv'⟩ := hrep _ (compLabels_lt adj u)
    rw [e, oneOfEach_unique hus hv hu hv']
  let w' : Nat → Nat := fun c => ((rep c).map w).getD 0
  let m' : Nat → Bool := fun c => ((rep c).map m).getD false
  have hw' : us.map (fun u => w' (compLabels adj u)) = us.map w :=
    List.map_congr_left fun u hu => by simp [w', hrepu u hu]
  have hm' : us.map (fun u => m' (compLabels adj u)) = us.map m :=
    List.map_congr_left fun u hu => by simp [m', hrepu u hu]
  have hsum : ((List.range (nComponents adj)).map w').sum = (us.map w).sum := by
    rw [← hw', ← (hperm.map w').sum_eq, List.map_map]
    rfl
  have hq : ∀ {β : Type} (l : List β) (f : β → Bool), l.any f = (l.map f).any id := fun l f => by
    rw [List.any_map]; rfl
  have hany : (List.range (nComponents adj)).any m' = us.any m := by
    rw [hq us m, ← hm', ← hperm.any_eq, List.any_map, List.any_map]
    rfl
  obtain ⟨v', hrun⟩ := hotLoop_complete (expf := expf) (attr := attr) (fuel := fuel) (term := term) (t := t)
    (L' := y.labels) (w := w') (m := m') he ht hs hx.contiguous hx.named hf
    (cs := List.range (nComponents adj)) List.nodup_range (fun c hc => by
      rw [List.mem_range] at hc
      obtain ⟨u, hu, hu1, hu2⟩ := hrep c hc
      subst hu2
      refine ⟨hc, ?_⟩
      have := (hotComp_iff (expf := expf) (t := t) hx.named (hval _ hx.named) u).2 (h1 u hu1)
      simpa [w', m', hu] using this) (fun _ => -1) x.worse x.moved v0
  have hall : ∀ r', ∃ r0, azpFit o expf obj fuel adj attr p (some x.labels)
      (.sa t term x.worse v0 (decide (term ≤ x.worse)) x.moved : Strat n 0) r0 =
      .ok (y.labels, .sa t term y.worse v' (decide (term ≤ y.worse)) y.moved, r') := by
    intro r'
    obtain ⟨r0, h⟩ := hrun r'
    refine ⟨r0, ?_⟩
    unfold azpFit fitWith
    dsimp only
    rw [feasible_start hx.contiguous (by rw [hx.number]), Res.bind_ok, separateComponents_eq, h, hsum, hany,
      ← h2, ← h3]
    have : (fun v => if compLabels adj v ∈ List.range (nComponents adj) then y.labels v else -1) = y.labels := by
      funext v
      rw [if_pos (List.mem_range.2 (compLabels_lt adj v))]
    rw [this]
  obtain ⟨r0, h⟩ := hall fun _ => 0
  exact ⟨_, ⟨v', rfl⟩, azpFit_startable o hs hx h, hall⟩

end

end Fit

/-- The objective of the island, with the areas as the islands list them. -/
theorem pairwise_island {n : Nat} {ρ : Type} {metric : ρ → ρ → ℚ} (hsym : ∀ x y, metric x y = metric y x)
    {adj : Adj n} (attr : Fin n → ρ) (init : Labels n) (hm : ∀ v, init v ≠ -1) (u : Fin n)
    (L : Island adj u → Int) :
    (pairwise metric).call (L ∘ islandEquiv adj init hm u)
      (fun i => attr ((shown (compArray adj init (compLabels adj u))).get i)) =
      dissimilarity (fun a b : Island adj u => metric (attr a) (attr b)) L / 2 := by
  rw [← dissimilarity_comp (islandEquiv adj init hm u), dissimilarity_fin (fun a b => hsym _ _)]
  have h : ∀ {k : Nat} (l : Labels k) (a : Fin k → ρ), (pairwise metric).call l a =
      withinPairs l fun i j => metric (a i) (a j) := fun l a => pairwiseCall_eq metric l a
  rw [h]
  simp only [islandEquiv_apply]
  ring

end Region
