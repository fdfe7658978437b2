import Verif.Lemmas.InitialSol
import Verif.Model.Sparse
/-
Sparse matrices with values: without stored zeros the functions only see which values are not zero.
-/
namespace Region.Csr

open Region Spec

variable {n : Nat}

/-- The matrix stores no zeros. -/
def Clean (A : Csr n) : Prop := ∀ i, ∀ e ∈ A.rows i, e.2 ≠ 0

theorem rows_nodup (A : Csr n) (i : Fin n) : ((A.rows i).map Prod.fst).Nodup :=
  (A.sorted i).imp fun h => ne_of_lt h

theorem get?_eq_some (A : Csr n) (i j : Fin n) (w : ℚ) : A.get? i j = some w ↔ (j, w) ∈ A.rows i := by
  unfold get?
  rw [Option.map_eq_some_iff]
  constructor
  · rintro ⟨e, h1, h2⟩
    have hm := List.mem_of_find?_eq_some h1
    have := List.find?_some h1
    simp only [decide_eq_true_eq] at this
    obtain ⟨a, b⟩ := e
    simp only at this h2
    rw [← this, ← h2]; exact hm
  · intro h
    have hs : ((A.rows i).find? fun e => decide (e.1 = j)).isSome := by
      rw [List.find?_isSome]; exact ⟨_, h, by simp⟩
    obtain ⟨e, he⟩ := Option.isSome_iff_exists.1 hs
    refine ⟨e, he, ?_⟩
    have hm := List.mem_of_find?_eq_some he
    have := List.find?_some he
    simp only [decide_eq_true_eq] at this
    have := List.inj_on_of_nodup_map (A.rows_nodup i) hm h this
    rw [this]

theorem stored_iff (A : Csr n) (i j : Fin n) : A.stored i j = true ↔ ∃ w, A.get? i j = some w := by
  simp [stored, get?_eq_some]

theorem nonzero_iff (A : Csr n) (i j : Fin n) :
    A.nonzero i j = true ↔ ∃ w, A.get? i j = some w ∧ w ≠ 0 := by
  simp only [nonzero, List.any_eq_true, Bool.and_eq_true, decide_eq_true_eq, get?_eq_some]
  constructor
  · rintro ⟨⟨a, w⟩, h1, h2, h3⟩
    simp only at h2 h3; subst h2; exact ⟨w, h1, h3⟩
  · rintro ⟨w, h1, h2⟩; exact ⟨_, h1, rfl, h2⟩

theorem nonzero_iff_value (A : Csr n) (i j : Fin n) : A.nonzero i j = true ↔ A.value i j ≠ 0 := by
  rw [nonzero_iff, value]
  cases A.get? i j <;> simp

theorem Clean.stored {A : Csr n} (h : A.Clean) : A.stored = A.nonzero := by
  funext i j
  rw [Bool.eq_iff_iff, stored_iff, nonzero_iff]
  constructor
  · rintro ⟨w, hw⟩; exact ⟨w, hw, h i _ ((get?_eq_some A i j w).1 hw)⟩
  · rintro ⟨w, hw, _⟩; exact ⟨w, hw⟩

theorem get?_sub (keep : Bool) (A : Csr n) (nodes : List (Fin n)) (i j : Fin nodes.length) (w : ℚ) :
    (A.sub keep nodes).get? i j = some w ↔
      A.get? (nodes.get i) (nodes.get j) = some w ∧ (keep = true ∨ w ≠ 0) := by
  rw [get?_eq_some]
  simp only [sub, List.mem_filterMap, List.mem_finRange, true_and]
  constructor
  · rintro ⟨j', h⟩
    cases h1 : A.get? (nodes.get i) (nodes.get j') with
    | none => simp only [h1] at h; cases h
    | some v =>
      simp only [h1] at h
      split at h
      · rename_i hk
        simp only [Option.some.injEq, Prod.mk.injEq] at h
        obtain ⟨rfl, rfl⟩ := h
        exact ⟨h1, by simpa using hk⟩
      · cases h
  · rintro ⟨h1, h2⟩
    refine ⟨j, ?_⟩
    rw [h1]
    have : (keep || decide (w ≠ 0)) = true := by simpa using h2
    simp only [this, if_true]

theorem Clean.sub {A : Csr n} (h : A.Clean) (keep : Bool) (nodes : List (Fin n)) :
    (A.sub keep nodes).Clean := by
  rintro i ⟨j, w⟩ he
  have := (get?_sub keep A nodes i j w).1 ((get?_eq_some _ i j w).2 he)
  exact h _ _ ((get?_eq_some A _ _ w).1 this.1)

theorem sub_clean (A : Csr n) (nodes : List (Fin n)) : (A.sub false nodes).Clean := by
  rintro i ⟨j, w⟩ he
  have := (get?_sub false A nodes i j w).1 ((get?_eq_some _ i j w).2 he)
  simpa using this.2

theorem nonzero_sub (keep : Bool) (A : Csr n) (nodes : List (Fin n)) :
    (A.sub keep nodes).nonzero = subAdj A.nonzero nodes := by
  funext i j
  rw [Bool.eq_iff_iff, nonzero_iff]
  unfold subAdj
  rw [nonzero_iff]
  constructor
  · rintro ⟨w, h1, h2⟩; exact ⟨w, ((get?_sub keep A nodes i j w).1 h1).1, h2⟩
  · rintro ⟨w, h1, h2⟩; exact ⟨w, (get?_sub keep A nodes i j w).2 ⟨h1, Or.inr h2⟩, h2⟩

theorem neighbors_eq (A : Csr n) (a : Fin n) : A.neighbors a = Region.neighbors A.nonzero a := by
  have h1 : (A.neighbors a).Pairwise (· < ·) :=
    (A.sorted a).sublist (List.filter_sublist.map _)
  have h2 : (Region.neighbors A.nonzero a).Pairwise (· < ·) := (List.pairwise_lt_finRange n).filter _
  refine List.Perm.eq_of_pairwise (le := fun x y => x < y) (fun x y _ _ h h' => absurd h (lt_asymm h'))
    h1 h2 ((List.perm_ext_iff_of_nodup (h1.imp fun h => ne_of_lt h) (h2.imp fun h => ne_of_lt h)).2 ?_)
  intro b
  rw [mem_neighbors, nonzero_iff]
  simp only [neighbors, List.mem_map, List.mem_filter, decide_eq_true_eq]
  constructor
  · rintro ⟨⟨c, w⟩, ⟨h1, h2⟩, h3⟩
    simp only at h2 h3; subst h3
    exact ⟨w, (get?_eq_some _ _ _ _).2 h1, h2⟩
  · rintro ⟨w, h1, h2⟩
    exact ⟨(b, w), ⟨(get?_eq_some _ _ _ _).1 h1, h2⟩, rfl⟩

theorem assertLoop_eq {keep : Bool} {A : Csr n} (h : keep = false ∨ A.Clean) (solution : Labels n)
    (rs : List Int) : assertLoop keep A solution rs = Region.assertLoop solution A.nonzero rs := by
  induction rs with
  | nil => rfl
  | cons r rs ih =>
    have hc : (A.sub keep (whereEq solution r)).Clean := by
      rcases h with rfl | h
      · exact sub_clean A _
      · exact h.sub keep _
    unfold assertLoop Region.assertLoop
    rw [ih]
    unfold isConnected
    rw [hc.stored, nonzero_sub]

theorem assertFeasible_eq {keep : Bool} {A : Csr n} (h : keep = false ∨ A.Clean) (solution : Labels n)
    (p : Option Int) : A.assertFeasible keep solution p = Region.assertFeasible solution A.nonzero p := by
  unfold assertFeasible Region.assertFeasible
  cases p <;> simp only [assertLoop_eq h]

/-- The visiting order of one matrix as an order of its pattern. -/
theorem exists_order (o : Order) {A : Csr n} (h : A.Clean) :
    ∃ o' : MstOrder, o'.mst A.nonzero = A.mst o := by
  classical
  have hp : (o.order A).Perm (edgesOf A.nonzero) := by rw [← h.stored]; exact o.perm A
  refine ⟨⟨fun {k} adj => if e : (⟨k, adj⟩ : Σ k, Adj k) = ⟨n, A.nonzero⟩ then
      (Sigma.mk.inj e).1.symm ▸ o.order A else edgesOf adj, ?_⟩, ?_⟩
  · intro k adj
    by_cases e : (⟨k, adj⟩ : Σ k, Adj k) = ⟨n, A.nonzero⟩
    · rw [dif_pos e]
      cases e
      exact hp
    · rw [dif_neg e]
  · unfold MstOrder.mst mst
    simp only [dif_pos]
    refine (List.filter_eq_self.2 ?_).symm
    intro e he
    have := (kruskal_spec (o.order A)).2.1 e he
    rw [hp.mem_iff, mem_edgesOf] at this
    exact this

theorem randomlyDivide_eq (o : Order) {A : Csr n} (h : A.Clean) :
    ∃ o' : MstOrder, ∀ k r, A.randomlyDivide o k r = Region.randomlyDivide o' A.nonzero k r := by
  obtain ⟨o', ho⟩ := exists_order o h
  exact ⟨o', fun k r => by unfold randomlyDivide Region.randomlyDivide; rw [ho]⟩

theorem divideComponent_eq (o : Order) (keep : Bool) {A : Csr n} (h : A.Clean) (c : Nat) :
    ∃ o' : MstOrder, ∀ k built r,
      divideComponent o keep A c k built r = Region.divideComponent o' A.nonzero c k built r := by
  obtain ⟨o', ho⟩ := randomlyDivide_eq o (h.sub keep (whereEq (compLabels A.nonzero) c))
  refine ⟨o', fun k built r => ?_⟩
  unfold divideComponent Region.divideComponent
  rw [h.stored]
  simp only [ho, nonzero_sub]

theorem divideComponent_divideOk (o : Order) (keep : Bool) {A : Csr n} (h : A.Clean) :
    DivideOk A.nonzero (divideComponent o keep A) := by
  intro c hc k built h1 h2 r
  obtain ⟨o', ho⟩ := divideComponent_eq o keep h c
  rw [ho]
  exact divideComponent_spec o' A.nonzero hc k built h1 h2 r

theorem divideSteps_eq_genSteps (o : Order) (keep : Bool) (A : Csr n) (d : IntDict) (cs : List Nat)
    (built : Int) :
    divideSteps o keep A d cs built = genSteps (divideComponent o keep A) d cs built := by
  induction cs generalizing built with
  | nil => rfl
  | cons c cs ih => simp only [divideSteps, genSteps, ih]

theorem generateInitialSol_spec (o : Order) (keep : Bool) {A : Csr n} (h : A.Clean) (p : Int) (r : Rng)
    (hn : 0 < n) (hp : p ≤ n) (hp1 : p ≠ 1) (hc : (nComponents A.nonzero : Int) ≤ p) :
    ∃ gen r', A.generateInitialSol o keep p r = .ok (gen, r') ∧
      (∀ s ∈ gen, ∀ r, ∃ y r', s r = .ok (.array y, r')) ∧
      ∀ ys, List.Forall₂ Yields gen ys →
        ∃ lab : Labels n, ys = Region.separateComponents A.nonzero lab ∧ AllContiguous A.nonzero lab ∧
          (∀ v, 0 ≤ lab v ∧ lab v < p) ∧ (∀ x, 0 ≤ x → x < p → ∃ v, lab v = x) := by
  obtain ⟨d, r', h1, h2, h3⟩ := generate_spec (divideComponent_divideOk o keep h) p r hn hp hc
  rw [← divideSteps_eq_genSteps] at h2 h3
  refine ⟨divideSteps o keep A d d.keys 0, r', ?_, h2, h3⟩
  unfold generateInitialSol
  rw [h.stored, if_neg (by omega), if_neg (by omega), if_neg hp1, if_neg (by omega), h1]
  rfl

end Region.Csr
