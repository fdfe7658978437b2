import Verif.Lemmas.StartCut
import Verif.Lemmas.AzpFit
/-
Lemmas: what `generate_initial_sol` can yield, in terms of one spanning forest of the map.
-/
namespace Region
open Spec

/-! ### The order of the component labels -/

theorem compLabels_order {n : Nat} {adj : Adj n} {u v : Fin n} (h : compLabels adj u < compLabels adj v) :
    ∃ a, SameIsland adj a u ∧ ∀ b, SameIsland adj b v → a < b := by
  refine ⟨_, compLabels_get adj u, fun b hb => ?_⟩
  have h1 : (firstNodes adj)[compLabels adj u]'(compLabels_lt adj u) <
      (firstNodes adj)[compLabels adj v]'(compLabels_lt adj v) :=
    List.pairwise_iff_getElem.1 (firstNodes_sorted adj) _ _ _ _ h
  refine lt_of_lt_of_le h1 ?_
  by_contra hlt
  rw [not_le] at hlt
  exact mem_firstNodes.1 (List.getElem_mem _) b hlt (hb.trans (sameIsland_symm (compLabels_get adj v)))

theorem whereEq_get_lt {n : Nat} {α : Type} [DecidableEq α] {labels : Fin n → α} {r : α}
    {i j : Fin (whereEq labels r).length} (h : i < j) : (whereEq labels r).get i < (whereEq labels r).get j :=
  List.pairwise_iff_get.1 ((List.pairwise_lt_finRange n).filter _) i j h

theorem IsForest.card {n : Nat} {es : List (Fin n × Fin n)} (h : IsForest es) :
    nComponents (adjOf es) + es.length = n := by
  induction hl : es.length generalizing es with
  | zero =>
    rw [List.length_eq_zero_iff] at hl
    subst hl
    simp [nComponents_nil]
  | succ k ih =>
    obtain ⟨e, he⟩ := List.exists_mem_of_length_pos (l := es) (by omega)
    have h1 := ih (h.erase e) (by rw [List.length_erase_of_mem he]; omega)
    rw [h.nComponents_erase he] at h1
    omega

theorem IsForest.sublist {n : Nat} {es es' : List (Fin n × Fin n)} (h : IsForest es) (hs : es'.Sublist es) :
    IsForest es' :=
  ⟨h.1.sublist hs, fun e he hl => h.2 e (hs.subset he) (sameIsland_mono (hs.erase e).subset hl)⟩

theorem sublist_eq_filter {α : Type} [DecidableEq α] {l l' : List α} (hs : l'.Sublist l) (hn : l.Nodup) :
    l.filter (fun x => decide (x ∈ l')) = l' := by
  induction hs with
  | slnil => rfl
  | @cons l1 l2 a hs ih =>
    rw [List.nodup_cons] at hn
    rw [List.filter_cons_of_neg (by simpa using fun h => hn.1 (hs.subset h)), ih hn.2]
  | @cons_cons l1 l2 a hs ih =>
    rw [List.nodup_cons] at hn
    rw [List.filter_cons_of_pos (by simp)]
    congr 1
    rw [← ih hn.2]
    apply List.filter_congr
    intro x hx
    have : x ≠ a := fun h => hn.1 (h ▸ hx)
    simp [this, ih hn.2]

/-! ### The forest -/

section
variable (o : MstOrder) {n : Nat} (adj : Adj n)

/-- The areas of a component. -/
abbrev compIdx (c : Nat) : List (Fin n) := whereEq (compLabels adj) c

/-- A pair of positions as a pair of areas. -/
def liftLink (c : Nat) (e : Fin (compIdx adj c).length × Fin (compIdx adj c).length) : Fin n × Fin n :=
  ((compIdx adj c).get e.1, (compIdx adj c).get e.2)

/-- The spanning tree of a component. -/
def compTree (c : Nat) : List (Fin (compIdx adj c).length × Fin (compIdx adj c).length) :=
  o.mst (subAdj adj (compIdx adj c))

/-- The spanning trees of all components. -/
def forestOf : Finset (Fin n × Fin n) :=
  (Finset.range (nComponents adj)).biUnion fun c => ((compTree o adj c).map (liftLink adj c)).toFinset

/-- The links of a component among `K`. -/
def part (K : Finset (Fin n × Fin n)) (c : Nat) :
    List (Fin (compIdx adj c).length × Fin (compIdx adj c).length) :=
  (compTree o adj c).filter fun e => decide (liftLink adj c e ∈ K)

variable {o adj}

theorem compLabels_idx {c : Nat} (i : Fin (compIdx adj c).length) :
    compLabels adj ((compIdx adj c).get i) = c := mem_whereEq.1 (List.get_mem _ _)

theorem idx_get {c : Nat} {v : Fin n} (h : compLabels adj v = c) : ∃ i, (compIdx adj c).get i = v :=
  List.get_of_mem (mem_whereEq.2 h)

theorem idx_inj {c : Nat} {i j : Fin (compIdx adj c).length}
    (h : (compIdx adj c).get i = (compIdx adj c).get j) : i = j :=
  (whereEq_nodup (compLabels adj) c).injective_get h

theorem liftLink_inj {c : Nat} : Function.Injective (liftLink adj c) := by
  intro e e' h
  unfold liftLink at h
  rw [Prod.mk.injEq] at h
  exact Prod.ext (idx_inj h.1) (idx_inj h.2)

theorem liftLink_comp {c : Nat} (e : Fin (compIdx adj c).length × Fin (compIdx adj c).length) :
    compLabels adj (liftLink adj c e).1 = c := compLabels_idx _

theorem mem_forestOf {e : Fin n × Fin n} :
    e ∈ forestOf o adj ↔ ∃ c, c < nComponents adj ∧ ∃ e0 ∈ compTree o adj c, liftLink adj c e0 = e := by
  simp [forestOf]

theorem mem_part {K : Finset (Fin n × Fin n)} {c : Nat}
    {e : Fin (compIdx adj c).length × Fin (compIdx adj c).length} :
    e ∈ part o adj K c ↔ e ∈ compTree o adj c ∧ liftLink adj c e ∈ K := by
  simp [part]

theorem compTree_forest (c : Nat) : IsForest (compTree o adj c) := (mst_spec o _).1

theorem compTree_length {c : Nat} (hc : c < nComponents adj) :
    (compTree o adj c).length + 1 = (compIdx adj c).length := by
  have h := (mst_spec o (subAdj adj (compIdx adj c))).2.2.2.2
  rw [(nComponents_eq_one_iff _).2 (connected_component_subAdj adj hc)] at h
  unfold compTree
  omega

theorem part_sublist (K : Finset (Fin n × Fin n)) (c : Nat) : (part o adj K c).Sublist (compTree o adj c) :=
  List.filter_sublist

variable {K : Finset (Fin n × Fin n)}

theorem mem_of_lift (hK : K ⊆ forestOf o adj) {c : Nat} {i : Fin (compIdx adj c).length} {e : Fin n × Fin n}
    (he : e ∈ K) (h : e.1 = (compIdx adj c).get i ∨ e.2 = (compIdx adj c).get i) :
    ∃ e0 ∈ part o adj K c, liftLink adj c e0 = e := by
  obtain ⟨c', hc', e0, he0, rfl⟩ := mem_forestOf.1 (hK he)
  have : c' = c := by
    rcases h with h | h
    · have := congrArg (compLabels adj) h
      rw [compLabels_idx] at this
      exact (compLabels_idx e0.1).symm.trans this
    · have := congrArg (compLabels adj) h
      rw [compLabels_idx] at this
      exact (compLabels_idx e0.2).symm.trans this
  subst this
  exact ⟨e0, mem_part.2 ⟨he0, he⟩, rfl⟩

theorem linked_down (hK : K ⊆ forestOf o adj) {c : Nat} {i : Fin (compIdx adj c).length} {v : Fin n}
    (h : Linked K ((compIdx adj c).get i) v) :
    ∃ j, (compIdx adj c).get j = v ∧ SameIsland (adjOf (part o adj K c)) i j := by
  induction h with
  | refl => exact ⟨i, rfl, .refl⟩
  | @tail x y _ hxy ih =>
    obtain ⟨j, rfl, hj⟩ := ih
    rcases hxy with h | h
    · obtain ⟨e0, he0, heq⟩ := mem_of_lift (i := j) hK (of_decide_eq_true h) (Or.inl rfl)
      unfold liftLink at heq
      rw [Prod.mk.injEq] at heq
      have := idx_inj heq.1
      subst this
      exact ⟨e0.2, heq.2, hj.tail (Or.inl (adjOf_iff.2 he0))⟩
    · obtain ⟨e0, he0, heq⟩ := mem_of_lift (i := j) hK (of_decide_eq_true h) (Or.inr rfl)
      unfold liftLink at heq
      rw [Prod.mk.injEq] at heq
      have := idx_inj heq.2
      subst this
      exact ⟨e0.1, heq.1, hj.tail (Or.inr (adjOf_iff.2 he0))⟩

theorem linked_up {c : Nat} {i j : Fin (compIdx adj c).length}
    (h : SameIsland (adjOf (part o adj K c)) i j) :
    Linked K ((compIdx adj c).get i) ((compIdx adj c).get j) := by
  induction h with
  | refl => exact .refl
  | tail _ h ih =>
    refine ih.tail ?_
    rcases h with h | h
    · exact Or.inl (decide_eq_true (mem_part.1 (adjOf_iff.1 h)).2)
    · exact Or.inr (decide_eq_true (mem_part.1 (adjOf_iff.1 h)).2)

theorem card_links (hK : K ⊆ forestOf o adj) :
    K.card = ∑ c ∈ Finset.range (nComponents adj), (part o adj K c).length := by
  have h1 : K = (Finset.range (nComponents adj)).biUnion fun c =>
      ((part o adj K c).map (liftLink adj c)).toFinset := by
    ext e
    simp only [Finset.mem_biUnion, Finset.mem_range, List.mem_toFinset, List.mem_map]
    constructor
    · intro he
      obtain ⟨c, hc, e0, he0, rfl⟩ := mem_forestOf.1 (hK he)
      exact ⟨c, hc, e0, mem_part.2 ⟨he0, he⟩, rfl⟩
    · rintro ⟨c, hc, e0, he0, rfl⟩
      exact (mem_part.1 he0).2
  conv_lhs => rw [h1]
  rw [Finset.card_biUnion]
  · refine Finset.sum_congr rfl fun c _ => ?_
    rw [List.toFinset_card_of_nodup, List.length_map]
    exact ((compTree_forest c).1.sublist (part_sublist K c)).map liftLink_inj
  · intro c _ c' _ hcc
    refine Finset.disjoint_left.2 ?_
    intro e he he'
    obtain ⟨e0, _, h0⟩ := List.mem_map.1 (List.mem_toFinset.1 he)
    obtain ⟨e1, _, h1⟩ := List.mem_map.1 (List.mem_toFinset.1 he')
    exact hcc ((liftLink_comp e0).symm.trans (by rw [h0, ← h1]; exact liftLink_comp e1))

theorem sum_sizes : ∑ c ∈ Finset.range (nComponents adj), (compIdx adj c).length = n := by
  have h := Finset.card_eq_sum_card_fiberwise (s := (Finset.univ : Finset (Fin n)))
    (t := Finset.range (nComponents adj)) (f := compLabels adj)
    (fun v _ => by simpa using compLabels_lt adj v)
  rw [Finset.card_univ, Fintype.card_fin] at h
  refine Eq.trans (Finset.sum_congr rfl fun c _ => ?_) h.symm
  rw [← List.toFinset_card_of_nodup (whereEq_nodup _ _)]
  congr 1
  ext v
  simp [mem_whereEq]

theorem forestOf_spans : SpanningLinks adj (forestOf o adj) := by
  refine ⟨?_, ?_, ?_⟩
  · intro e he
    obtain ⟨c, hc, e0, he0, rfl⟩ := mem_forestOf.1 he
    exact (mst_spec o (subAdj adj (compIdx adj c))).2.1 e0 he0
  · intro a b hab
    have hc := (compLabels_eq_iff adj a b).2 hab
    obtain ⟨i, hi⟩ := idx_get (adj := adj) (v := a) rfl
    obtain ⟨j, hj⟩ := idx_get (adj := adj) (v := b) hc.symm
    rw [← hi, ← hj]
    apply linked_up
    have hall : part o adj (forestOf o adj) (compLabels adj a) = compTree o adj (compLabels adj a) := by
      apply List.filter_eq_self.2
      intro e he
      exact decide_eq_true (mem_forestOf.2 ⟨_, compLabels_lt adj a, e, he, rfl⟩)
    rw [hall]
    refine ((mst_spec o (subAdj adj (compIdx adj (compLabels adj a)))).2.2.1 i j).2 ?_
    exact (connected_component_subAdj adj (compLabels_lt adj a)).2 i j
  · intro e he hl
    obtain ⟨c, hc, e0, he0, rfl⟩ := mem_forestOf.1 he
    obtain ⟨j, hj, hs⟩ := linked_down (o := o) (Finset.erase_subset _ _) hl
    have := idx_inj hj
    subst this
    refine (compTree_forest c).2 e0 he0 (sameIsland_mono ?_ hs)
    intro e he
    obtain ⟨h1, h2⟩ := mem_part.1 he
    rw [List.mem_erase_of_ne]
    · exact h1
    · rintro rfl
      exact Finset.notMem_erase _ _ h2

/-! ### The clustering belonging to the kept links -/

variable (o adj) (K)

/-- The number of regions of a component. -/
def piecesOf (c : Nat) : Int := (compIdx adj c).length - (part o adj K c).length

/-- The number of regions of the components before. -/
def piecesBefore (c : Nat) : Int := ∑ i ∈ Finset.range c, piecesOf o adj K i

/-- The array yielded for a component. -/
def pieceArray (c : Nat) : Labels n :=
  scatter (compIdx adj c) (fun i => (compLabels (adjOf (part o adj K c)) i : Int) + piecesBefore o adj K c)
    fun _ => -1

/-- The arrays put together. -/
def cutLabels : Labels n := fun v => pieceArray o adj K (compLabels adj v) v

variable {o adj} {K}

theorem cutLabels_get {c : Nat} (i : Fin (compIdx adj c).length) :
    cutLabels o adj K ((compIdx adj c).get i) =
      (compLabels (adjOf (part o adj K c)) i : Int) + piecesBefore o adj K c := by
  unfold cutLabels
  rw [compLabels_idx]
  exact scatter_mem (whereEq_nodup _ _) _ _ i

theorem piecesOf_eq (c : Nat) :
    piecesOf o adj K c = nComponents (adjOf (part o adj K c)) := by
  have := ((compTree_forest (o := o) (adj := adj) c).sublist (part_sublist K c)).card
  unfold piecesOf
  omega

theorem piecesBefore_mono {c c' : Nat} (h : c < c') :
    piecesBefore o adj K c + piecesOf o adj K c ≤ piecesBefore o adj K c' := by
  unfold piecesBefore
  rw [← Finset.sum_range_succ]
  refine Finset.sum_le_sum_of_subset_of_nonneg (by simpa using Nat.succ_le_of_lt h) fun i _ _ => ?_
  rw [piecesOf_eq]; omega

theorem piecesBefore_all (hK : K ⊆ forestOf o adj) :
    piecesBefore o adj K (nComponents adj) = n - K.card := by
  unfold piecesBefore piecesOf
  rw [Finset.sum_sub_distrib, ← Nat.cast_sum, ← Nat.cast_sum, sum_sizes, ← card_links hK]

theorem cutLabels_bounds (v : Fin n) :
    piecesBefore o adj K (compLabels adj v) ≤ cutLabels o adj K v ∧
      cutLabels o adj K v <
        piecesBefore o adj K (compLabels adj v) + piecesOf o adj K (compLabels adj v) := by
  obtain ⟨i, hi⟩ := idx_get (adj := adj) (v := v) rfl
  have h : cutLabels o adj K v = (compLabels (adjOf (part o adj K (compLabels adj v))) i : Int) +
      piecesBefore o adj K (compLabels adj v) := by
    conv_lhs => rw [← hi]
    exact cutLabels_get i
  have h1 := compLabels_lt (adjOf (part o adj K (compLabels adj v))) i
  rw [piecesOf_eq]
  omega

theorem cutLabels_lt_comp {u v : Fin n} (h : cutLabels o adj K u < cutLabels o adj K v) :
    compLabels adj u ≤ compLabels adj v := by
  by_contra hlt
  rw [not_le] at hlt
  have := piecesBefore_mono (o := o) (adj := adj) (K := K) hlt
  have := cutLabels_bounds (o := o) (adj := adj) (K := K) u
  have := cutLabels_bounds (o := o) (adj := adj) (K := K) v
  omega

theorem cutLabels_eq_comp {u v : Fin n} (h : cutLabels o adj K u = cutLabels o adj K v) :
    compLabels adj u = compLabels adj v := by
  by_contra hne
  have := cutLabels_bounds (o := o) (adj := adj) (K := K) u
  have := cutLabels_bounds (o := o) (adj := adj) (K := K) v
  rcases Nat.lt_or_gt_of_ne hne with hlt | hlt
  · have := piecesBefore_mono (o := o) (adj := adj) (K := K) hlt
    omega
  · have := piecesBefore_mono (o := o) (adj := adj) (K := K) hlt
    omega

theorem cutLabels_iff (hK : K ⊆ forestOf o adj) (u v : Fin n) :
    cutLabels o adj K u = cutLabels o adj K v ↔ Linked K u v := by
  obtain ⟨i, hi⟩ := idx_get (adj := adj) (v := u) rfl
  constructor
  · intro h
    have hc := cutLabels_eq_comp h
    obtain ⟨j, hj⟩ := idx_get (adj := adj) (v := v) hc.symm
    rw [← hi, ← hj, cutLabels_get, cutLabels_get] at h
    rw [← hi, ← hj]
    exact linked_up ((compLabels_eq_iff (adjOf (part o adj K (compLabels adj u))) i j).1 (by omega))
  · intro h
    rw [← hi] at h
    obtain ⟨j, hj, hs⟩ := linked_down hK h
    rw [← hi, ← hj, cutLabels_get, cutLabels_get, (compLabels_eq_iff _ i j).2 hs]

theorem cutLabels_inOrder (hK : K ⊆ forestOf o adj) :
    InOrder adj (n - K.card) (cutLabels o adj K) := by
  refine ⟨?_, ?_, ?_⟩
  · intro x
    rw [← piecesBefore_all hK]
    constructor
    · rintro ⟨v, rfl⟩
      have h1 := cutLabels_bounds (o := o) (adj := adj) (K := K) v
      have h2 := piecesBefore_mono (o := o) (adj := adj) (K := K) (compLabels_lt adj v)
      have h3 : 0 ≤ piecesBefore o adj K (compLabels adj v) :=
        Finset.sum_nonneg fun i _ => by rw [piecesOf_eq]; omega
      omega
    · rintro ⟨h0, h1⟩
      have key : ∀ C, x < piecesBefore o adj K C →
          ∃ c < C, piecesBefore o adj K c ≤ x ∧ x < piecesBefore o adj K c + piecesOf o adj K c := by
        intro C
        induction C with
        | zero => intro h; simp [piecesBefore] at h; omega
        | succ C ih =>
          intro h
          by_cases hx : x < piecesBefore o adj K C
          · obtain ⟨c, hc, h⟩ := ih hx
            exact ⟨c, by omega, h⟩
          · refine ⟨C, by omega, by omega, ?_⟩
            unfold piecesBefore at h ⊢
            rwa [Finset.sum_range_succ] at h
      obtain ⟨c, _, h2, h3⟩ := key _ h1
      rw [piecesOf_eq] at h3
      obtain ⟨i, hi⟩ := compLabels_surj (adjOf (part o adj K c))
        (c := (x - piecesBefore o adj K c).toNat) (by omega)
      exact ⟨_, by rw [cutLabels_get i, hi]; omega⟩
  · intro u v h hs
    have hc := (compLabels_eq_iff adj u v).2 hs
    obtain ⟨i, hi⟩ := idx_get (adj := adj) (v := u) rfl
    obtain ⟨j, hj⟩ := idx_get (adj := adj) (v := v) hc.symm
    rw [← hi, ← hj, cutLabels_get, cutLabels_get] at h
    obtain ⟨a, ha, hb⟩ := compLabels_order (adj := adjOf (part o adj K (compLabels adj u)))
      (u := i) (v := j) (by omega)
    refine ⟨(compIdx adj (compLabels adj u)).get a, ?_, fun b hbv => ?_⟩
    · rw [cutLabels_iff hK]
      have := linked_up ha
      rwa [hi] at this
    · have := (cutLabels_iff hK v b).1 hbv.symm
      rw [← hj] at this
      obtain ⟨b0, rfl, hs⟩ := linked_down hK this
      exact whereEq_get_lt (hb b0 (sameIsland_symm hs))
  · intro u v h hs
    rw [← compLabels_eq_iff] at hs
    exact compLabels_order (lt_of_le_of_ne (cutLabels_lt_comp h) hs)

theorem cutLabels_cutFrom (hK : K ⊆ forestOf o adj) :
    CutFrom adj (forestOf o adj) (n - K.card) (cutLabels o adj K) :=
  ⟨cutLabels_inOrder hK, K, hK, by omega, cutLabels_iff hK⟩

theorem compArray_cutLabels (c : Nat) : compArray adj (cutLabels o adj K) c = pieceArray o adj K c := by
  funext v
  unfold compArray
  split_ifs with hv
  · subst hv; rfl
  · unfold pieceArray
    rw [scatter_not_mem _ _ (fun h => hv (mem_whereEq.1 h))]

end

/-! ### The numbering is determined by the clustering -/

theorem Spec.InOrder.lt_iff {n : Nat} {adj : Fin n → Fin n → Bool} {p : Int} {L L' : Fin n → Int}
    (h : InOrder adj p L) (h' : InOrder adj p L') (he : ∀ u v, L u = L v ↔ L' u = L' v) {u v : Fin n}
    (hlt : L u < L v) : L' u < L' v := by
  by_contra hge
  have hne : L' u ≠ L' v := fun h => hlt.ne ((he u v).2 h)
  have hlt' : L' v < L' u := by omega
  by_cases hs : SameIsland adj u v
  · obtain ⟨a, ha, hab⟩ := h.regions u v hlt hs
    obtain ⟨b, hb, hba⟩ := h'.regions v u hlt' (sameIsland_symm hs)
    have h1 := hab b ((he _ _).2 hb)
    have h2 := hba a ((he _ _).1 ha)
    exact absurd h1 (not_lt.2 h2.le)
  · obtain ⟨a, ha, hab⟩ := h.islands u v hlt hs
    obtain ⟨b, hb, hba⟩ := h'.islands v u hlt' fun h => hs (sameIsland_symm h)
    exact absurd (hab b hb) (not_lt.2 (hba a ha).le)

theorem Spec.InOrder.unique {n : Nat} {adj : Fin n → Fin n → Bool} {p : Int} {L L' : Fin n → Int}
    (h : InOrder adj p L) (h' : InOrder adj p L') (he : ∀ u v, L u = L v ↔ L' u = L' v) : L = L' := by
  have key : ∀ k : Nat, (∀ v, L v = k → L' v = k) ∧ ∀ v, L' v = k → L v = k := by
    intro k
    induction k using Nat.strong_induction_on with
    | _ k ih =>
      have step : ∀ {M M' : Fin n → Int}, InOrder adj p M → InOrder adj p M' →
          (∀ u v, M u = M v ↔ M' u = M' v) →
          (∀ m < k, (∀ v, M v = m → M' v = m) ∧ ∀ v, M' v = m → M v = m) → ∀ v, M v = k → M' v = k := by
        intro M M' hM hM' hMM ih v hv
        have hb := (hM'.numbers (M' v)).1 ⟨v, rfl⟩
        rcases lt_trichotomy (M' v) k with hlt | heq | hgt
        · have := (ih (M' v).toNat (by omega)).2 v (by omega)
          omega
        · exact heq
        · obtain ⟨w, hw⟩ := (hM'.numbers k).2 ⟨by omega, by omega⟩
          have h1 := hM'.lt_iff hM (fun u v => (hMM u v).symm) (u := w) (v := v) (by omega)
          have h2 := (hM.numbers (M w)).1 ⟨w, rfl⟩
          have := (ih (M w).toNat (by omega)).1 w (by omega)
          omega
      exact ⟨step h h' he ih, step h' h (fun u v => (he u v).symm) fun m hm => (ih m hm).symm⟩
  funext v
  have hb := (h.numbers (L v)).1 ⟨v, rfl⟩
  have := (key (L v).toNat).1 v (by omega)
  omega

theorem cutFrom_iff {o : MstOrder} {n : Nat} {adj : Adj n} {p : Int} {lab : Labels n} :
    CutFrom adj (forestOf o adj) p lab ↔
      ∃ K, K ⊆ forestOf o adj ∧ (K.card : Int) = n - p ∧ lab = cutLabels o adj K := by
  constructor
  · rintro ⟨h, K, hK, hc, hl⟩
    refine ⟨K, hK, hc, ?_⟩
    have h2 := cutLabels_inOrder hK
    rw [show (n : Int) - K.card = p by omega] at h2
    exact h.unique h2 fun u v => (hl u v).trans (cutLabels_iff hK u v).symm
  · rintro ⟨K, hK, hc, rfl⟩
    have := cutLabels_cutFrom hK
    rwa [show (n : Int) - K.card = p by omega] at this

end Region
