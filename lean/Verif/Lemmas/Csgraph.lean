import Mathlib.Data.Fintype.Card
import Mathlib.Data.Fin.Basic
import Verif.Spec
import Verif.Model.Csgraph
/-
Correctness of the model of scipy's connected components and of the helpers in
`csgraph_utils.py`.
-/
namespace Region

open Relation Spec

theorem rtg_lift {α β : Type} {r : α → α → Prop} {s : β → β → Prop} (f : α → β)
    (h : ∀ x y, r x y → ReflTransGen s (f x) (f y)) {a b : α} (hab : ReflTransGen r a b) :
    ReflTransGen s (f a) (f b) := by
  induction hab with
  | refl => exact .refl
  | tail _ h1 ih => exact ih.trans (h _ _ h1)

theorem rtg_mono {α : Type} {r s : α → α → Prop} (h : ∀ x y, r x y → s x y) {a b : α}
    (hab : ReflTransGen r a b) : ReflTransGen s a b :=
  rtg_lift id (fun x y hxy => .single (h x y hxy)) hab

theorem mem_edgesOf {n : Nat} {adj : Adj n} {i j : Fin n} :
    (i, j) ∈ edgesOf adj ↔ adj i j = true := by
  simp [edgesOf]

theorem mergeClass_ends {n : Nat} (c : Fin n → Fin n) (e : Fin n × Fin n) :
    mergeClass c e e.1 = mergeClass c e e.2 := by
  unfold mergeClass; split_ifs <;> simp_all

theorem mergeClass_of_eq {n : Nat} {c : Fin n → Fin n} (e : Fin n × Fin n) {x y : Fin n}
    (h : c x = c y) : mergeClass c e x = mergeClass c e y := by
  unfold mergeClass; rw [h]

theorem eq_of_mergeClass {n : Nat} {c : Fin n → Fin n} {e : Fin n × Fin n} {x y : Fin n}
    (h : mergeClass c e x = mergeClass c e y) :
    EqvGen (fun x y => c x = c y ∨ (x, y) = e) x y := by
  have hE : EqvGen (fun x y => c x = c y ∨ (x, y) = e) e.1 e.2 := .rel _ _ (Or.inr rfl)
  unfold mergeClass at h
  split_ifs at h with h1 h2 h2
  · exact .rel _ _ (Or.inl (h1.trans h2.symm))
  · exact .trans _ _ _ (.rel _ _ (Or.inl h1)) (.trans _ _ _ hE (.rel _ _ (Or.inl h)))
  · exact .trans _ _ _ (.rel _ _ (Or.inl h))
      (.trans _ _ _ (.symm _ _ hE) (.rel _ _ (Or.inl h2.symm)))
  · exact .rel _ _ (Or.inl h)

theorem eqvGen_mono' {α : Type} {r s : α → α → Prop} (h : ∀ x y, r x y → EqvGen s x y) {x y : α}
    (hxy : EqvGen r x y) : EqvGen s x y := by
  induction hxy with
  | rel _ _ h1 => exact h _ _ h1
  | refl _ => exact .refl _
  | symm _ _ _ ih => exact .symm _ _ ih
  | trans _ _ _ _ _ ih1 ih2 => exact .trans _ _ _ ih1 ih2

theorem foldl_mergeClass_iff {n : Nat} (es : List (Fin n × Fin n)) (c : Fin n → Fin n)
    (a b : Fin n) :
    es.foldl mergeClass c a = es.foldl mergeClass c b ↔
      EqvGen (fun x y => c x = c y ∨ (x, y) ∈ es) a b := by
  induction es generalizing c with
  | nil =>
    simp only [List.foldl_nil, List.not_mem_nil, or_false]
    constructor
    · exact fun h => .rel _ _ h
    · intro h
      induction h with
      | rel _ _ h => exact h
      | refl _ => rfl
      | symm _ _ _ ih => exact ih.symm
      | trans _ _ _ _ _ ih1 ih2 => exact ih1.trans ih2
  | cons e es ih =>
    rw [List.foldl_cons, ih]
    constructor
    · apply eqvGen_mono'
      rintro x y (h | h)
      · refine eqvGen_mono' ?_ (eq_of_mergeClass h)
        rintro u v (h' | h')
        · exact .rel _ _ (Or.inl h')
        · exact .rel _ _ (Or.inr (by simp [h']))
      · exact .rel _ _ (Or.inr (List.mem_cons_of_mem _ h))
    · apply eqvGen_mono'
      rintro x y (h | h)
      · exact .rel _ _ (Or.inl (mergeClass_of_eq e h))
      · rcases List.mem_cons.1 h with h | h
        · refine .rel _ _ (Or.inl ?_)
          have := mergeClass_ends c e
          rw [← h] at this ⊢
          exact this
        · exact .rel _ _ (Or.inr h)

theorem borders_symm {V : Type} {adj : V → V → Bool} {a b : V} (h : Borders adj a b) :
    Borders adj b a := h.symm

theorem sameIsland_symm {V : Type} {adj : V → V → Bool} {a b : V} (h : SameIsland adj a b) :
    SameIsland adj b a :=
  h.head_induction_on .refl fun h1 _ ih => ih.tail (borders_symm h1)

theorem sameIsland_iff_eqvGen {V : Type} {adj : V → V → Bool} {a b : V} :
    SameIsland adj a b ↔ EqvGen (fun x y => adj x y = true) a b := by
  constructor
  · intro h
    induction h with
    | refl => exact .refl _
    | tail _ h ih =>
      refine .trans _ _ _ ih ?_
      rcases h with h | h
      · exact .rel _ _ h
      · exact .symm _ _ (.rel _ _ h)
  · intro h
    induction h with
    | rel _ _ h => exact .single (Or.inl h)
    | refl _ => exact .refl
    | symm _ _ _ ih => exact sameIsland_symm ih
    | trans _ _ _ _ _ ih1 ih2 => exact ih1.trans ih2

/-- The representatives computed by the merge procedure identify the islands of the map. -/
theorem compRepr_eq_iff {n : Nat} (adj : Adj n) (a b : Fin n) :
    compRepr adj a = compRepr adj b ↔ SameIsland adj a b := by
  rw [compRepr, foldl_mergeClass_iff, sameIsland_iff_eqvGen]
  constructor
  · apply eqvGen_mono'
    rintro x y (h | h)
    · simp only [id] at h; subst h; exact .refl _
    · exact .rel _ _ (mem_edgesOf.1 h)
  · apply eqvGen_mono'
    intro x y h
    exact .rel _ _ (Or.inr (mem_edgesOf.2 h))

theorem mem_firstNodes {n : Nat} {adj : Adj n} {i : Fin n} :
    i ∈ firstNodes adj ↔ ∀ j, j < i → ¬ SameIsland adj j i := by
  simp only [firstNodes, List.mem_filter, List.mem_finRange, true_and, List.all_eq_true,
    Bool.not_eq_true', Bool.and_eq_false_iff, decide_eq_false_iff_not, forall_const,
    compRepr_eq_iff]
  constructor
  · intro h j hj; exact (h j).resolve_left (fun h' => h' hj)
  · intro h j
    by_cases hj : j < i
    · exact Or.inr (h j hj)
    · exact Or.inl hj

theorem firstNodes_nodup {n : Nat} (adj : Adj n) : (firstNodes adj).Nodup :=
  (List.nodup_finRange n).filter _

theorem firstNodes_sorted {n : Nat} (adj : Adj n) : (firstNodes adj).Pairwise (· < ·) :=
  (List.pairwise_lt_finRange n).filter _

theorem firstNodes_inj {n : Nat} {adj : Adj n} {i j : Fin n} (hi : i ∈ firstNodes adj)
    (hj : j ∈ firstNodes adj) (h : SameIsland adj i j) : i = j := by
  rcases lt_trichotomy i j with hlt | heq | hgt
  · exact absurd h (mem_firstNodes.1 hj i hlt)
  · exact heq
  · exact absurd (sameIsland_symm h) (mem_firstNodes.1 hi j hgt)

theorem exists_firstNode {n : Nat} (adj : Adj n) (x : Fin n) :
    ∃ f ∈ firstNodes adj, SameIsland adj f x := by
  induction hx : x.val using Nat.strong_induction_on generalizing x with
  | _ m ih =>
    by_cases h : x ∈ firstNodes adj
    · exact ⟨x, h, .refl⟩
    · rw [mem_firstNodes] at h
      push Not at h
      obtain ⟨j, hj, hs⟩ := h
      obtain ⟨f, hf, hfj⟩ := ih j.val (by rw [← hx]; exact hj) j rfl
      exact ⟨f, hf, hfj.trans hs⟩

/-- Any labelling that separates exactly the islands uses `nComponents` labels. -/
theorem card_image_eq_nComponents {n : Nat} {α : Type} [DecidableEq α] (adj : Adj n)
    (f : Fin n → α) (hf : ∀ a b, f a = f b ↔ SameIsland adj a b) :
    (Finset.univ.image f).card = nComponents adj := by
  have h1 : Finset.univ.image f = (firstNodes adj).toFinset.image f := by
    ext y
    simp only [Finset.mem_image, Finset.mem_univ, true_and, List.mem_toFinset]
    constructor
    · rintro ⟨x, rfl⟩
      obtain ⟨g, hg, hs⟩ := exists_firstNode adj x
      exact ⟨g, hg, (hf _ _).2 hs⟩
    · rintro ⟨x, _, rfl⟩; exact ⟨x, rfl⟩
  rw [h1, Finset.card_image_of_injOn, List.toFinset_card_of_nodup (firstNodes_nodup adj)]
  · rfl
  · intro a ha b hb hab
    simp only [List.coe_toFinset, Set.mem_ofPred_eq] at ha hb
    exact firstNodes_inj ha hb ((hf _ _).1 hab)

theorem compLabels_lt {n : Nat} (adj : Adj n) (x : Fin n) :
    compLabels adj x < nComponents adj := by
  unfold compLabels nComponents
  rw [List.findIdx_lt_length]
  obtain ⟨f, hf, hs⟩ := exists_firstNode adj x
  exact ⟨f, hf, by simpa [compRepr_eq_iff] using hs⟩

theorem compLabels_get {n : Nat} (adj : Adj n) (x : Fin n) :
    SameIsland adj ((firstNodes adj)[compLabels adj x]'(compLabels_lt adj x)) x := by
  have h := compLabels_lt adj x
  unfold compLabels nComponents at h
  have := List.findIdx_getElem (w := h)
  rw [decide_eq_true_eq, compRepr_eq_iff] at this
  exact this

/-- Two areas have the same component label exactly when they lie on the same island. -/
theorem compLabels_eq_iff {n : Nat} (adj : Adj n) (a b : Fin n) :
    compLabels adj a = compLabels adj b ↔ SameIsland adj a b := by
  constructor
  · intro h
    have ha := compLabels_get adj a
    have hb := compLabels_get adj b
    simp only [h] at ha
    exact (sameIsland_symm ha).trans hb
  · intro h
    unfold compLabels
    rw [← compRepr_eq_iff] at h
    rw [h]

theorem compLabels_surj {n : Nat} (adj : Adj n) {c : Nat} (hc : c < nComponents adj) :
    ∃ x, compLabels adj x = c := by
  refine ⟨(firstNodes adj)[c]'hc, ?_⟩
  have h2 := firstNodes_inj (List.getElem_mem _) (List.getElem_mem _)
    (compLabels_get adj ((firstNodes adj)[c]'hc))
  exact (List.Nodup.getElem_inj_iff (firstNodes_nodup adj)).1 h2

theorem nComponents_eq_one_iff {n : Nat} (adj : Adj n) : nComponents adj = 1 ↔ Connected adj := by
  constructor
  · intro h
    have h0 : ∃ f, firstNodes adj = [f] := List.length_eq_one_iff.1 h
    obtain ⟨f, hf⟩ := h0
    refine ⟨⟨f⟩, fun a b => ?_⟩
    rw [← compLabels_eq_iff]
    have ha := compLabels_lt adj a
    have hb := compLabels_lt adj b
    omega
  · rintro ⟨⟨v⟩, h⟩
    have h1 := compLabels_lt adj v
    by_contra hne
    have h2 : 1 < nComponents adj := by omega
    obtain ⟨x, hx⟩ := compLabels_surj adj h2
    obtain ⟨y, hy⟩ := compLabels_surj adj (show 0 < nComponents adj by omega)
    have := (compLabels_eq_iff adj x y).2 (h x y)
    omega

theorem isConnected_iff {n : Nat} (adj : Adj n) : isConnected adj = true ↔ Connected adj := by
  rw [← nComponents_eq_one_iff]; simp [isConnected]

theorem mem_neighbors {n : Nat} {adj : Adj n} {a b : Fin n} :
    b ∈ neighbors adj a ↔ adj a b = true := by
  simp [neighbors]

theorem mem_whereEq {n : Nat} {α : Type} [DecidableEq α] {labels : Fin n → α} {r : α}
    {x : Fin n} : x ∈ whereEq labels r ↔ labels x = r := by
  simp [whereEq]

theorem whereEq_nodup {n : Nat} {α : Type} [DecidableEq α] (labels : Fin n → α) (r : α) :
    (whereEq labels r).Nodup := (List.nodup_finRange n).filter _

theorem mem_dropNodes {n : Nat} {nodes wo : List (Fin n)} {x : Fin n} :
    x ∈ dropNodes nodes wo ↔ x ∈ nodes ∧ x ∉ wo := by
  simp [dropNodes]

theorem dropNodes_nodup {n : Nat} {nodes : List (Fin n)} (h : nodes.Nodup) (wo : List (Fin n)) :
    (dropNodes nodes wo).Nodup := h.filter _

theorem stepIn_symm {V : Type} {adj : V → V → Bool} {S : Set V} {a b : V}
    (h : StepIn adj S a b) : StepIn adj S b a := ⟨h.2.1, h.1, h.2.2.symm⟩

theorem pathIn_symm {V : Type} {adj : V → V → Bool} {S : Set V} {a b : V}
    (h : PathIn adj S a b) : PathIn adj S b a :=
  h.head_induction_on .refl fun h1 _ ih => ih.tail (stepIn_symm h1)

theorem pathIn_mono {V : Type} {adj : V → V → Bool} {S T : Set V} (hST : S ⊆ T) {a b : V}
    (h : PathIn adj S a b) : PathIn adj T a b :=
  rtg_mono (fun _ _ h => ⟨hST h.1, hST h.2.1, h.2.2⟩) h

theorem pathIn_sameIsland {V : Type} {adj : V → V → Bool} {S : Set V} {a b : V}
    (h : PathIn adj S a b) : SameIsland adj a b :=
  rtg_mono (fun _ _ h => h.2.2) h

theorem sameIsland_subAdj {n : Nat} {adj : Adj n} {nodes : List (Fin n)}
    {i j : Fin nodes.length} (h : SameIsland (subAdj adj nodes) i j) :
    PathIn adj {x | x ∈ nodes} (nodes.get i) (nodes.get j) := by
  induction h with
  | refl => exact .refl
  | tail _ h ih => exact ih.tail ⟨List.get_mem _ _, List.get_mem _ _, h⟩

theorem pathIn_subAdj {n : Nat} {adj : Adj n} {nodes : List (Fin n)} {a b : Fin n}
    (h : PathIn adj {x | x ∈ nodes} a b) (i : Fin nodes.length) (hi : nodes.get i = a) :
    ∃ j : Fin nodes.length, nodes.get j = b ∧ SameIsland (subAdj adj nodes) i j := by
  induction h with
  | refl => exact ⟨i, hi, .refl⟩
  | tail _ h ih =>
    obtain ⟨j, hj, hij⟩ := ih
    obtain ⟨k, hk⟩ := List.get_of_mem h.2.1
    refine ⟨k, hk, hij.tail ?_⟩
    have := h.2.2
    rw [← hj, ← hk] at this
    exact this

/-- A duplicate-free array of nodes induces a connected subgraph exactly when the node set is
spatially contiguous. -/
theorem isConnected_subAdj {n : Nat} (adj : Adj n) {nodes : List (Fin n)} (hn : nodes.Nodup) :
    isConnected (subAdj adj nodes) = true ↔ Contiguous adj {x | x ∈ nodes} := by
  rw [isConnected_iff]
  constructor
  · rintro ⟨⟨v⟩, h⟩
    refine ⟨⟨nodes.get v, List.get_mem _ _⟩, ?_⟩
    intro a ha b hb
    obtain ⟨i, rfl⟩ := List.get_of_mem ha
    obtain ⟨j, rfl⟩ := List.get_of_mem hb
    exact sameIsland_subAdj (h i j)
  · rintro ⟨⟨v, hv⟩, h⟩
    obtain ⟨i, hi⟩ := List.get_of_mem hv
    refine ⟨⟨i⟩, fun a b => ?_⟩
    obtain ⟨j, hj, hij⟩ := pathIn_subAdj (h _ (List.get_mem nodes a) _ (List.get_mem nodes b)) a rfl
    rwa [(List.nodup_iff_injective_get.1 hn) hj] at hij

theorem isConnected_subAdj_whereEq {n : Nat} {α : Type} [DecidableEq α] (adj : Adj n)
    (labels : Fin n → α) (r : α) :
    isConnected (subAdj adj (whereEq labels r)) = true ↔ Contiguous adj (regionOf labels r) := by
  rw [isConnected_subAdj adj (whereEq_nodup labels r)]
  have : {x | x ∈ whereEq labels r} = regionOf labels r := by
    ext x; simp [mem_whereEq, regionOf]
  rw [this]

theorem isConnected_subAdjWo {n : Nat} {α : Type} [DecidableEq α] (adj : Adj n)
    (labels : Fin n → α) (r : α) (a : Fin n) :
    isConnected (subAdjWo adj (whereEq labels r) [a]) = true ↔
      Contiguous adj {x | labels x = r ∧ x ≠ a} := by
  unfold subAdjWo
  rw [isConnected_subAdj adj (dropNodes_nodup (whereEq_nodup labels r) _)]
  have : {x | x ∈ dropNodes (whereEq labels r) [a]} = {x | labels x = r ∧ x ≠ a} := by
    ext x; simp [mem_whereEq, mem_dropNodes]
  rw [this]

end Region
