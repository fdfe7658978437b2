import Mathlib.Data.Fintype.Card
import Verif.Lemmas.Util
/-
Edge lists: adding or removing one edge, forests, Kruskal's algorithm.
-/
namespace Region

open Relation Spec

theorem adjOf_iff {n : Nat} {es : List (Fin n × Fin n)} {i j : Fin n} :
    adjOf es i j = true ↔ (i, j) ∈ es := by
  simp [adjOf]

theorem adjOf_congr {n : Nat} {es es' : List (Fin n × Fin n)} (h : ∀ e, e ∈ es ↔ e ∈ es') :
    adjOf es = adjOf es' := by
  funext i j
  rw [Bool.eq_iff_iff, adjOf_iff, adjOf_iff, h]

theorem sameIsland_adjOf {n : Nat} {es : List (Fin n × Fin n)} {a b : Fin n} :
    SameIsland (adjOf es) a b ↔ EqvGen (fun x y => (x, y) ∈ es) a b := by
  rw [sameIsland_iff_eqvGen]
  simp only [adjOf_iff]

theorem sameIsland_mono {n : Nat} {es es' : List (Fin n × Fin n)} (h : es ⊆ es') {a b : Fin n}
    (hab : SameIsland (adjOf es) a b) : SameIsland (adjOf es') a b := by
  rw [sameIsland_adjOf] at hab ⊢
  exact eqvGen_mono' (fun x y hxy => .rel _ _ (h hxy)) hab

/-- Merging the two end classes of an edge separates exactly the islands after adding it. -/
theorem merge_separates {n : Nat} {es : List (Fin n × Fin n)} {c : Fin n → Fin n}
    (hc : ∀ a b, c a = c b ↔ SameIsland (adjOf es) a b) (e : Fin n × Fin n) (a b : Fin n) :
    mergeClass c e a = mergeClass c e b ↔ SameIsland (adjOf (e :: es)) a b := by
  have h := foldl_mergeClass_iff [e] c a b
  simp only [List.foldl_cons, List.foldl_nil] at h
  rw [h, sameIsland_adjOf]
  constructor
  · apply eqvGen_mono'
    rintro x y (h | h)
    · rw [hc, sameIsland_adjOf] at h
      exact eqvGen_mono' (fun x y hxy => .rel _ _ (List.mem_cons_of_mem _ hxy)) h
    · exact .rel _ _ (by simp only [List.mem_singleton] at h; simp [h])
  · apply eqvGen_mono'
    intro x y h
    rcases List.mem_cons.1 h with h | h
    · exact .rel _ _ (Or.inr (by simp [h]))
    · exact .rel _ _ (Or.inl ((hc _ _).2 (sameIsland_adjOf.2 (.rel _ _ h))))

theorem nComponents_cons_linked {n : Nat} {es : List (Fin n × Fin n)} {e : Fin n × Fin n}
    (h : SameIsland (adjOf es) e.1 e.2) :
    nComponents (adjOf (e :: es)) = nComponents (adjOf es) := by
  rw [← card_image_eq_nComponents _ _ (compRepr_eq_iff (adjOf es)),
    ← card_image_eq_nComponents _ _ (merge_separates (compRepr_eq_iff (adjOf es)) e)]
  have h' := (compRepr_eq_iff (adjOf es) _ _).2 h
  have : mergeClass (compRepr (adjOf es)) e = compRepr (adjOf es) := by
    funext x
    unfold mergeClass
    split_ifs with hx
    · rw [hx, h']
    · rfl
  rw [this]

theorem nComponents_cons_unlinked {n : Nat} {es : List (Fin n × Fin n)} {e : Fin n × Fin n}
    (h : ¬ SameIsland (adjOf es) e.1 e.2) :
    nComponents (adjOf es) = nComponents (adjOf (e :: es)) + 1 := by
  rw [← card_image_eq_nComponents _ _ (compRepr_eq_iff (adjOf es)),
    ← card_image_eq_nComponents _ _ (merge_separates (compRepr_eq_iff (adjOf es)) e)]
  set c := compRepr (adjOf es) with hc
  have h' : c e.1 ≠ c e.2 := fun h1 => h ((compRepr_eq_iff (adjOf es) _ _).1 h1)
  have : Finset.univ.image (mergeClass c e) = (Finset.univ.image c).erase (c e.1) := by
    ext y
    simp only [Finset.mem_image, Finset.mem_univ, true_and, Finset.mem_erase]
    constructor
    · rintro ⟨x, rfl⟩
      unfold mergeClass
      split_ifs with hx
      · exact ⟨h'.symm, e.2, rfl⟩
      · exact ⟨hx, x, rfl⟩
    · rintro ⟨hy, x, rfl⟩
      exact ⟨x, by unfold mergeClass; rw [if_neg hy]⟩
  rw [this, Finset.card_erase_of_mem (by simp)]
  have : 0 < (Finset.univ.image c).card := Finset.card_pos.2 ⟨c e.1, by simp⟩
  omega

theorem nComponents_nil {n : Nat} : nComponents (adjOf ([] : List (Fin n × Fin n))) = n := by
  have h : ∀ a b : Fin n, id a = id b ↔ SameIsland (adjOf ([] : List (Fin n × Fin n))) a b := by
    intro a b
    constructor
    · intro h; simp only [id] at h; subst h; exact .refl
    · intro h
      rw [sameIsland_adjOf] at h
      induction h with
      | rel _ _ h => cases h
      | refl _ => rfl
      | symm _ _ _ ih => exact ih.symm
      | trans _ _ _ _ _ ih1 ih2 => exact ih1.trans ih2
  rw [← card_image_eq_nComponents _ id h]
  simp

theorem le_nComponents_add_length {n : Nat} (es : List (Fin n × Fin n)) :
    n ≤ nComponents (adjOf es) + es.length := by
  induction es with
  | nil => simp [nComponents_nil]
  | cons e es ih =>
    by_cases h : SameIsland (adjOf es) e.1 e.2
    · rw [nComponents_cons_linked h]; simp; omega
    · have := nComponents_cons_unlinked h; simp; omega

/-- A list of edges without cycles: the ends of an edge are not linked by the others. -/
def IsForest {n : Nat} (es : List (Fin n × Fin n)) : Prop :=
  es.Nodup ∧ ∀ e ∈ es, ¬ SameIsland (adjOf (es.erase e)) e.1 e.2

theorem mem_cons_erase {α : Type} [BEq α] [LawfulBEq α] {es : List α} {e : α} (he : e ∈ es) (x : α) :
    x ∈ es ↔ x ∈ e :: es.erase e :=
  (List.perm_cons_erase he).mem_iff

theorem IsForest.erase {n : Nat} {es : List (Fin n × Fin n)} (h : IsForest es) (e : Fin n × Fin n) :
    IsForest (es.erase e) := by
  refine ⟨h.1.erase e, ?_⟩
  intro e' he' hs
  refine h.2 e' (List.mem_of_mem_erase he') (sameIsland_mono ?_ hs)
  rw [List.erase_comm]
  exact List.erase_subset

theorem IsForest.nComponents_erase {n : Nat} {es : List (Fin n × Fin n)} (h : IsForest es)
    {e : Fin n × Fin n} (he : e ∈ es) :
    nComponents (adjOf (es.erase e)) = nComponents (adjOf es) + 1 := by
  rw [adjOf_congr (mem_cons_erase he)]
  exact nComponents_cons_unlinked (h.2 e he)

/-- The invariant of Kruskal's algorithm after the entries `done`. -/
structure KruskalInv {n : Nat} (done : List (Fin n × Fin n))
    (st : (Fin n → Fin n) × List (Fin n × Fin n)) : Prop where
  sep : ∀ a b, st.1 a = st.1 b ↔ SameIsland (adjOf st.2) a b
  same : ∀ a b, SameIsland (adjOf st.2) a b ↔ SameIsland (adjOf done) a b
  card : nComponents (adjOf st.2) + st.2.length = n
  sub : st.2 ⊆ done

theorem kruskalInv_step {n : Nat} {done : List (Fin n × Fin n)}
    {st : (Fin n → Fin n) × List (Fin n × Fin n)} (h : KruskalInv done st) (e : Fin n × Fin n) :
    KruskalInv (e :: done) (kruskalStep st e) := by
  have key : ∀ es' : List (Fin n × Fin n), (∀ a b, SameIsland (adjOf es') a b ↔
      SameIsland (adjOf done) a b) → ∀ a b, SameIsland (adjOf (e :: es')) a b ↔
      SameIsland (adjOf (e :: done)) a b := by
    intro es' hes a b
    rw [← merge_separates (compRepr_eq_iff _) e, ← merge_separates (c := compRepr (adjOf es')) ?_ e]
    intro a b
    rw [compRepr_eq_iff, hes]
  unfold kruskalStep
  split_ifs with hlink
  · have hl : SameIsland (adjOf st.2) e.1 e.2 := (h.sep _ _).1 hlink
    refine ⟨h.sep, ?_, h.card, fun x hx => List.mem_cons_of_mem _ (h.sub hx)⟩
    intro a b
    rw [← key st.2 h.same]
    constructor
    · exact sameIsland_mono (List.subset_cons_self _ _)
    · intro hab
      rw [← merge_separates h.sep] at hab
      rw [← h.sep]
      unfold mergeClass at hab
      split_ifs at hab with h1 h2 h2
      · exact h1.trans h2.symm
      · rw [h1, hlink, hab]
      · rw [hab, h2, hlink]
      · exact hab
  · have hl : ¬ SameIsland (adjOf st.2) e.1 e.2 := fun hs => hlink ((h.sep _ _).2 hs)
    have hcongr : adjOf (st.2 ++ [e]) = adjOf (e :: st.2) := by
      apply adjOf_congr; intro x; simp [or_comm]
    refine ⟨?_, ?_, ?_, ?_⟩
    · intro a b
      dsimp only
      rw [hcongr]
      exact merge_separates h.sep e a b
    · intro a b
      dsimp only
      rw [hcongr]
      exact key st.2 h.same a b
    · have := nComponents_cons_unlinked hl
      have hc := h.card
      simp only [hcongr, List.length_append, List.length_singleton]
      omega
    · intro x hx
      rcases List.mem_append.1 hx with hx | hx
      · exact List.mem_cons_of_mem _ (h.sub hx)
      · simp only [List.mem_singleton] at hx; simp [hx]

theorem kruskalInv_foldl {n : Nat} (es done : List (Fin n × Fin n))
    {st : (Fin n → Fin n) × List (Fin n × Fin n)} (h : KruskalInv done st) :
    KruskalInv (es.reverse ++ done) (es.foldl kruskalStep st) := by
  induction es generalizing done st with
  | nil => simpa using h
  | cons e es ih =>
    have := ih (e :: done) (kruskalInv_step h e)
    simpa using this

theorem kruskalInv_init {n : Nat} : KruskalInv (n := n) [] (id, []) := by
  refine ⟨?_, fun _ _ => Iff.rfl, by simp [nComponents_nil], fun x hx => hx⟩
  intro a b
  dsimp only [id]
  constructor
  · rintro rfl; exact .refl
  · intro h
    rw [sameIsland_adjOf] at h
    induction h with
    | rel _ _ h => cases h
    | refl _ => rfl
    | symm _ _ _ ih => exact ih.symm
    | trans _ _ _ _ _ ih1 ih2 => exact ih1.trans ih2

theorem isForest_of_card {n : Nat} {es : List (Fin n × Fin n)}
    (h : nComponents (adjOf es) + es.length = n) : IsForest es := by
  have key : ∀ e ∈ es, ¬ SameIsland (adjOf (es.erase e)) e.1 e.2 := by
    intro e he hs
    have h1 := nComponents_cons_linked hs
    rw [← adjOf_congr (mem_cons_erase he)] at h1
    have h2 := le_nComponents_add_length (es.erase e)
    have h3 := List.length_erase_of_mem he
    have h4 := List.length_pos_of_mem he
    omega
  refine ⟨?_, key⟩
  rw [List.nodup_iff_count_le_one]
  intro e
  by_contra hcount
  have h2 : 2 ≤ es.count e := by omega
  have he : e ∈ es := List.count_pos_iff.1 (by omega)
  have he' : e ∈ es.erase e := by
    rw [← List.count_pos_iff, List.count_erase_self]; omega
  exact key e he (.single (Or.inl (adjOf_iff.2 he')))

theorem kruskal_spec {n : Nat} (es : List (Fin n × Fin n)) :
    IsForest (kruskal es) ∧ (∀ e ∈ kruskal es, e ∈ es) ∧
      (∀ a b, SameIsland (adjOf (kruskal es)) a b ↔ SameIsland (adjOf es) a b) ∧
      nComponents (adjOf (kruskal es)) + (kruskal es).length = n := by
  have h := kruskalInv_foldl es [] (kruskalInv_init (n := n))
  simp only [List.append_nil] at h
  refine ⟨isForest_of_card h.card, fun e he => by simpa using h.sub he, ?_, h.card⟩
  intro a b
  have h1 := h.same a b
  rw [adjOf_congr (fun e => List.mem_reverse)] at h1
  exact h1

/-- `csg.minimum_spanning_tree` returns a spanning forest. -/
theorem mst_spec (o : MstOrder) {n : Nat} (adj : Adj n) :
    IsForest (o.mst adj) ∧ (∀ e ∈ o.mst adj, adj e.1 e.2 = true) ∧
      (∀ a b, SameIsland (adjOf (o.mst adj)) a b ↔ SameIsland adj a b) ∧
      nComponents (adjOf (o.mst adj)) = nComponents adj ∧
      nComponents adj + (o.mst adj).length = n := by
  obtain ⟨h1, h2, h3, h4⟩ := kruskal_spec (o.order adj)
  have hadj : adjOf (o.order adj) = adj := by
    funext i j
    rw [Bool.eq_iff_iff, adjOf_iff, (o.perm adj).mem_iff, mem_edgesOf]
  rw [hadj] at h3
  have hc : nComponents (adjOf (o.mst adj)) = nComponents adj := by
    rw [← card_image_eq_nComponents adj (compRepr (adjOf (o.mst adj)))
      (fun a b => by rw [compRepr_eq_iff]; exact h3 a b),
      card_image_eq_nComponents _ _ (compRepr_eq_iff _)]
  refine ⟨h1, ?_, h3, hc, ?_⟩
  · intro e he
    have := h2 e he
    rw [(o.perm adj).mem_iff] at this
    exact mem_edgesOf.1 this
  · rw [← hc]; exact h4

/-- The islands of a subgraph are contiguous in the graph. -/
theorem contiguous_of_separates {n : Nat} {α : Type} {es : List (Fin n × Fin n)} {adj : Adj n}
    (hsub : ∀ e ∈ es, adj e.1 e.2 = true) {f : Fin n → α}
    (hf : ∀ a b, f a = f b ↔ SameIsland (adjOf es) a b) : AllContiguous adj f := by
  have key : ∀ a b, SameIsland (adjOf es) a b → PathIn adj (regionOf f (f a)) a b := by
    intro a b h
    induction h with
    | refl => exact .refl
    | @tail c d hac hcd ih =>
      refine ih.tail ⟨((hf _ _).2 hac).symm, ((hf _ _).2 (hac.tail hcd)).symm, ?_⟩
      rcases hcd with h | h
      · exact Or.inl (hsub _ (adjOf_iff.1 h))
      · exact Or.inr (hsub _ (adjOf_iff.1 h))
  intro v
  refine ⟨⟨v, rfl⟩, ?_⟩
  intro a ha b hb
  have hab : f a = f b := ha.trans hb.symm
  have := key a b ((hf _ _).1 hab)
  rwa [show f a = f v from ha] at this

end Region
