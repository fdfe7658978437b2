import Verif.Model.TestData
import Verif.Props.MaxpResults
import Verif.Props.MaxPExact
import Verif.Lemmas.Published
/-
The four areas of the tests of the max-p methods: two of the six pairs are alike.
-/
namespace Region

open Spec Relation Props

/-- Dissimilarities that vanish exactly between areas of the expected regions. -/
structure SquareLike (d : Fin 4 → Fin 4 → ℚ) : Prop where
  nonneg : ∀ i j, 0 ≤ d i j
  zero_iff : ∀ i j, d i j = 0 ↔ squareLabels i = squareLabels j

/-- The area sharing the row. -/
def rowMate : Fin 4 → Fin 4 := ![1, 0, 3, 2]

theorem square_symm : Spec.Symmetric squareAdj := by unfold Spec.Symmetric; decide +kernel

theorem rowMate_spec (v w : Fin 4) : squareLabels w = squareLabels v ↔ w = v ∨ w = rowMate v := by
  revert v w; decide +kernel

theorem rowMate_adj (v : Fin 4) : squareAdj v (rowMate v) = true := by revert v; decide +kernel

theorem rowMate_ne (v : Fin 4) : rowMate v ≠ v := by revert v; decide +kernel

section
variable {d : Fin 4 → Fin 4 → ℚ} {q : Nat}

theorem square_reaches (hq : 0 < q) (R : Finset (Fin 4)) :
    Reaches (fun _ (_ : Fin q) => (1 : ℚ)) (fun _ => 2) R ↔ 2 ≤ R.card := by
  unfold Reaches
  simp only [Finset.sum_const, nsmul_eq_mul, mul_one]
  constructor
  · intro h
    exact_mod_cast h ⟨0, hq⟩
  · intro h _
    exact_mod_cast h

/-- A seed whose row mate is free takes it in, and the region is complete. -/
theorem square_built (h : SquareLike d) (hq : 0 < q) {U U' R : Finset (Fin 4)} {v : Fin 4} {ok : Bool}
    (hp : rowMate v ∈ U)
    (hb : Built squareAdj d (fun _ (_ : Fin q) => (1 : ℚ)) (fun _ => 2) (U.erase v) {v} ok U' R) :
    ok = true ∧ U' = (U.erase v).erase (rowMate v) ∧ R = {rowMate v, v} := by
  have hfree : rowMate v ∈ U.erase v := Finset.mem_erase.2 ⟨rowMate_ne v, hp⟩
  have htouch : Touches squareAdj {v} (rowMate v) := ⟨v, by simp, .inl (rowMate_adj v)⟩
  cases hb with
  | full h' => rw [square_reaches hq] at h'; simp at h'
  | stuck _ hn => exact absurd htouch (hn _ hfree)
  | @take _ _ _ _ _ w h' hw ht hm t =>
    have h1 := hm _ hfree htouch
    have h2 : d (rowMate v) v = 0 := (h.zero_iff _ _).2 ((rowMate_spec _ _).2 (.inr rfl))
    simp only [distTo, Finset.sum_singleton, h2] at h1
    have h3 := (h.zero_iff w v).1 (le_antisymm h1 (h.nonneg _ _))
    rcases (rowMate_spec _ _).1 h3 with rfl | rfl
    · exact absurd rfl (Finset.mem_erase.1 hw).1
    · have hfull : Reaches (fun _ (_ : Fin q) => (1 : ℚ)) (fun _ => 2) (insert (rowMate v) {v}) := by
        rw [square_reaches hq, Finset.card_pair (rowMate_ne v)]
      cases t with
      | full _ => exact ⟨rfl, rfl, rfl⟩
      | stuck h5 _ => exact absurd hfull h5
      | take h5 _ _ _ _ => exact absurd hfull h5

/-- The first step of a construction. -/
theorem constructed_elim {V Q : Type} [DecidableEq V] {adj : V → V → Bool} {d : V → V → ℚ} {spat : V → Q → ℚ}
    {thr : Q → ℚ} {P P' : List (Finset V)} {E E' U : Finset V} (h : Constructed adj d spat thr P E U P' E') :
    (U = ∅ ∧ P' = P ∧ E' = E) ∨
    (∃ v ∈ U, ∃ U' R, Built adj d spat thr (U.erase v) {v} true U' R ∧
      Constructed adj d spat thr (P ++ [R]) E U' P' E') ∨
    ∃ v ∈ U, ∃ U' R, Built adj d spat thr (U.erase v) {v} false U' R := by
  cases h with
  | done => exact .inl ⟨rfl, rfl, rfl⟩
  | region hv h t => exact .inr (.inl ⟨_, hv, _, _, h, t⟩)
  | enclave hv h t => exact .inr (.inr ⟨_, hv, _, _, h⟩)

theorem square_step (h : SquareLike d) (hq : 0 < q) {P P' : List (Finset (Fin 4))} {E E' U : Finset (Fin 4)}
    (hU : ∀ v ∈ U, rowMate v ∈ U) (hne : U.Nonempty)
    (hc : Constructed squareAdj d (fun _ (_ : Fin q) => (1 : ℚ)) (fun _ => 2) P E U P' E') :
    ∃ v ∈ U, Constructed squareAdj d (fun _ (_ : Fin q) => (1 : ℚ)) (fun _ => 2) (P ++ [{rowMate v, v}]) E
      ((U.erase v).erase (rowMate v)) P' E' := by
  rcases constructed_elim hc with ⟨rfl, -⟩ | ⟨v, hv, U', R, hb, ht⟩ | ⟨v, hv, U', R, hb⟩
  · exact absurd rfl hne.ne_empty
  · obtain ⟨-, rfl, rfl⟩ := square_built h hq (hU v hv) hb
    exact ⟨v, hv, ht⟩
  · exact absurd (square_built h hq (hU v hv) hb).1 (by simp)

/-- All constructions: the two rows in either order, no area set aside. -/
theorem square_constructed (h : SquareLike d) (hq : 0 < q) {P : List (Finset (Fin 4))} {E : Finset (Fin 4)}
    (hc : Constructed squareAdj d (fun _ (_ : Fin q) => (1 : ℚ)) (fun _ => 2) [] ∅ Finset.univ P E) :
    E = ∅ ∧ (P = [{0, 1}, {2, 3}] ∨ P = [{2, 3}, {0, 1}]) := by
  obtain ⟨v, -, h1⟩ := square_step h hq (by simp) ⟨0, by simp⟩ hc
  obtain ⟨w, hw, h2⟩ := square_step h hq
    (by have : ∀ v, ∀ x ∈ (Finset.univ.erase v).erase (rowMate v),
          rowMate x ∈ (Finset.univ.erase v).erase (rowMate v) := by decide +kernel
        exact this v)
    (by have : ∀ v, ((Finset.univ.erase v).erase (rowMate v)).Nonempty := by decide +kernel
        exact this v) h1
  have hempty : ∀ v, ∀ w ∈ (Finset.univ.erase v).erase (rowMate v),
      (((Finset.univ.erase v).erase (rowMate v)).erase w).erase (rowMate w) = ∅ := by decide +kernel
  have hlist : ∀ v, ∀ w ∈ (Finset.univ.erase v).erase (rowMate v),
      ([] ++ [{rowMate v, v}] ++ [{rowMate w, w}] : List (Finset (Fin 4))) = [{0, 1}, {2, 3}] ∨
      ([] ++ [{rowMate v, v}] ++ [{rowMate w, w}] : List (Finset (Fin 4))) = [{2, 3}, {0, 1}] := by
    decide +kernel
  rw [hempty v w hw] at h2
  rcases constructed_elim h2 with ⟨-, rfl, rfl⟩ | ⟨v, hv, -⟩ | ⟨v, hv, -⟩
  · exact ⟨rfl, hlist v w hw⟩
  · simp at hv
  · simp at hv

theorem square_numbered {P : List (Finset (Fin 4))} (hP : P = [{0, 1}, {2, 3}] ∨ P = [{2, 3}, {0, 1}])
    {L : Labels 4} (h : Numbered P L) : SamePartition L squareLabels := by
  have key : ∀ v, ∃ i, L v = i ∧ (P = [{0, 1}, {2, 3}] ∧ i = squareLabels v ∨
      P = [{2, 3}, {0, 1}] ∧ i = 1 - squareLabels v) := by
    intro v
    obtain ⟨i, hi, h1, h2⟩ := h v
    refine ⟨_, h1, ?_⟩
    rcases hP with rfl | rfl
    · refine .inl ⟨rfl, ?_⟩
      have : ∀ v : Fin 4, ∀ i (h : i < [({0, 1} : Finset (Fin 4)), {2, 3}].length),
          v ∈ [({0, 1} : Finset (Fin 4)), {2, 3}][i] → (i : Int) = squareLabels v := by decide +kernel
      exact this v i hi h2
    · refine .inr ⟨rfl, ?_⟩
      have : ∀ v : Fin 4, ∀ i (h : i < [({2, 3} : Finset (Fin 4)), {0, 1}].length),
          v ∈ [({2, 3} : Finset (Fin 4)), {0, 1}][i] → (i : Int) = 1 - squareLabels v := by decide +kernel
      exact this v i hi h2
  intro u v
  obtain ⟨i, h1, h2⟩ := key u
  obtain ⟨j, h3, h4⟩ := key v
  rw [h1, h3]
  rcases h2 with ⟨e, rfl⟩ | ⟨e, rfl⟩ <;> rcases h4 with ⟨e', rfl⟩ | ⟨e', rfl⟩
  · rfl
  · rw [e] at e'; exact absurd e' (by decide +kernel)
  · rw [e] at e'; exact absurd e' (by decide +kernel)
  · omega

/-- With two areas in every region none can be spared. -/
theorem square_passed {init L : Labels 4} (hq : 0 < q) (hi : SamePartition init squareLabels)
    (h : PassedOnIslands squareAdj d (fun _ (_ : Fin q) => (1 : ℚ)) (fun _ => 2) init L) : L = init := by
  funext x
  obtain ⟨rs, -, hp⟩ := h x
  have hno : ∀ (a : Island squareAdj x) (r : Int),
      ¬ MaxpAllows (fun a b : Island squareAdj x => d a b)
        (onIsland squareAdj x fun _ (_ : Fin q) => (1 : ℚ)) (fun _ => 2) (onIsland squareAdj x init) a r := by
    rintro a r ⟨h1 | h1, -⟩
    · exact absurd (h1 ⟨0, hq⟩) one_ne_zero
    · have h2 := h1 ⟨0, hq⟩
      let b : Island squareAdj x := ⟨rowMate a, a.2.tail (.inl (rowMate_adj a))⟩
      rw [finsum_eq_single _ b, finsum_eq_if] at h2
      · split_ifs at h2 <;> norm_num at h2
      · intro y hy
        rw [finsum_eq_if, if_neg]
        rintro ⟨h3, h4⟩
        rcases (rowMate_spec _ _).1 ((hi _ _).1 h3) with h5 | h5
        · exact h4 (Subtype.ext h5)
        · exact hy (Subtype.ext h5)
  have hgrow : ∀ {r L'}, Spec.Grown (fun a b : Island squareAdj x => squareAdj a b)
      (MaxpAllows (fun a b : Island squareAdj x => d a b)
        (onIsland squareAdj x fun _ (_ : Fin q) => (1 : ℚ)) (fun _ => 2)) r (onIsland squareAdj x init) L' →
      L' = onIsland squareAdj x init := by
    intro r L' h
    cases h with
    | stop => rfl
    | move _ hc _ => exact absurd hc (hno _ _)
  have hpass : ∀ {rs M L'}, Spec.Passed (fun a b : Island squareAdj x => squareAdj a b)
      (MaxpAllows (fun a b : Island squareAdj x => d a b)
        (onIsland squareAdj x fun _ (_ : Fin q) => (1 : ℚ)) (fun _ => 2)) rs M L' →
      M = onIsland squareAdj x init → L' = M := by
    intro rs M L' h
    induction h with
    | nil => intro; rfl
    | cons h t ih =>
      rintro rfl
      have := hgrow h
      exact (ih this).trans this
  exact congrFun (hpass hp rfl) ⟨x, .refl⟩

theorem forall₂_right {α β : Type} {R : α → β → Prop} {as : List α} {bs : List β} (h : List.Forall₂ R as bs) {b : β}
    (hb : b ∈ bs) : ∃ a ∈ as, R a b := by
  induction h with
  | nil => cases hb
  | cons h1 h2 ih =>
    rcases List.mem_cons.1 hb with rfl | hb
    · exact ⟨_, List.mem_cons_self, h1⟩
    · obtain ⟨a, ha, h3⟩ := ih hb
      exact ⟨a, List.mem_cons_of_mem _ ha, h3⟩

/-- What the heuristic can end with. -/
theorem square_result (h : SquareLike d) (hq : 0 < q) {k p : Nat} {L : Labels 4}
    (hr : MaxpResult squareAdj d (fun _ (_ : Fin q) => (1 : ℚ)) (fun _ => 2) k
      (PassedOnIslands squareAdj d (fun _ (_ : Fin q) => (1 : ℚ)) fun _ => 2) p L) :
    p = 2 ∧ SamePartition L squareLabels := by
  obtain ⟨runs, -, h1, -, ⟨run, hrun, hlen⟩, parts, hparts, results, hres, before, after, rfl, -⟩ := hr
  refine ⟨?_, ?_⟩
  · rcases (square_constructed h hq (h1 run hrun)).2 with e | e <;> rw [← hlen, e] <;> rfl
  · have hL : L ∈ before ++ L :: after := by simp
    obtain ⟨P, hP, init, hn, hpass⟩ := forall₂_right hres hL
    have hP' : P ∈ parts := by
      obtain ⟨l, hl, hPl⟩ := List.mem_flatten.1 hP
      rwa [List.eq_of_mem_replicate hl] at hPl
    obtain ⟨run, hrun, habs⟩ := forall₂_right hparts hP'
    obtain ⟨hE, hrows⟩ := square_constructed h hq (h1 run (List.mem_of_mem_filter hrun))
    rw [hE] at habs
    have hPrun : P = run.1 := by
      generalize run.1 = X, hem : (∅ : Finset (Fin 4)) = e at habs
      cases habs with
      | done => rfl
      | join hv => subst hem; simp at hv
    have hn' := square_numbered (hPrun ▸ hrows) hn
    rwa [square_passed hq hn' hpass]

theorem square_labels : Feasible squareAdj squareLabels 2 := by
  refine ⟨?_, by decide +kernel⟩
  intro v
  refine ⟨⟨v, rfl⟩, fun a ha b hb => ?_⟩
  have hab : squareLabels b = squareLabels a := hb.trans ha.symm
  rcases (rowMate_spec a b).1 hab with rfl | rfl
  · exact .refl
  · exact .single ⟨ha, hb, .inl (rowMate_adj a)⟩

/-- With at least two areas in every region there are at most two regions. -/
theorem square_at_most {L : Labels 4} (h : ∀ v, 2 ≤ (Finset.univ.filter fun u => L u = L v).card) :
    numRegions L ≤ 2 := by
  have := Finset.mul_card_image_le_card (f := L) Finset.univ 2 (by
    intro a ha
    obtain ⟨v, -, rfl⟩ := Finset.mem_image.1 ha
    exact h v)
  simp only [Finset.card_univ, Fintype.card_fin] at this
  unfold numRegions
  omega

/-- No better clustering into two regions. -/
theorem square_unique (h : SquareLike d) {L : Labels 4} (hn : numRegions L = 2)
    (hle : withinPairs L d ≤ withinPairs squareLabels d) : SamePartition L squareLabels := by
  have h0 : withinPairs squareLabels d = 0 := Finset.sum_eq_zero fun e he =>
    (h.zero_iff _ _).2 (Finset.mem_filter.1 he).2.2
  rw [h0] at hle
  have hz := (Finset.sum_eq_zero_iff_of_nonneg fun e _ => h.nonneg e.1 e.2).1
    (le_antisymm hle (Finset.sum_nonneg fun e _ => h.nonneg e.1 e.2))
  have href : ∀ i j, L i = L j → squareLabels i = squareLabels j := by
    intro i j hij
    rcases lt_trichotomy i j with hlt | rfl | hlt
    · exact (h.zero_iff _ _).1 (hz (i, j) (by simp [hlt, hij]))
    · rfl
    · exact ((h.zero_iff _ _).1 (hz (j, i) (by simp [hlt, hij]))).symm
  intro i j
  refine ⟨href i j, fun hs => ?_⟩
  by_contra hne
  have hother : ∀ i : Fin 4, ∃ k, squareLabels k ≠ squareLabels i := by decide +kernel
  obtain ⟨k, hk⟩ := hother i
  have hki : L k ≠ L i := fun e => hk (href _ _ e)
  have hkj : L k ≠ L j := fun e => hk ((href _ _ e).trans hs.symm)
  have h3 : ({L i, L j, L k} : Finset Int).card = 3 := Finset.card_eq_three.2
    ⟨_, _, _, hne, hki.symm, hkj.symm, rfl⟩
  have h4 : ({L i, L j, L k} : Finset Int) ⊆ Finset.univ.image L := by
    intro x hx
    simp only [Finset.mem_insert, Finset.mem_singleton] at hx
    rcases hx with rfl | rfl | rfl <;> exact Finset.mem_image_of_mem _ (Finset.mem_univ _)
  have := Finset.card_le_card h4
  unfold numRegions at hn
  omega

end

end Region
