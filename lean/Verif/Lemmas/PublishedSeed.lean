import Verif.Lemmas.PublishedTabu
import Verif.Lemmas.StartOne
/-
The starts `fit` makes itself: on a connected map every cut of the spanning tree is made for some draws.
-/
namespace Region

open Spec Relation Props

section
variable {σ ρ : Type} {n : Nat} {adj : Adj n}

/-- The spanning tree of a connected map. -/
theorem forestOf_connected (o : MstOrder) (hcon : Connected adj) :
    forestOf o adj = (o.mst adj).toFinset := by
  have h1 := (nComponents_eq_one_iff _).2 hcon
  unfold forestOf compTree liftLink
  rw [h1]
  have hidx : compIdx adj 0 = List.finRange n := by
    unfold compIdx whereEq
    rw [List.filter_eq_self]
    intro v _
    have := compLabels_lt adj v
    simp only [decide_eq_true_eq]
    omega
  simp only [Finset.range_one, Finset.singleton_biUnion]
  rw [hidx]
  have key : ∀ (k : Nat) (hk : k = n) (f : Fin k → Fin n), (∀ i, (f i).val = i.val) →
      ((o.mst fun i j => adj (f i) (f j)).map fun e => (f e.1, f e.2)).toFinset = (o.mst adj).toFinset := by
    rintro k rfl f hf
    have : f = fun i => i := funext fun i => Fin.ext (hf i)
    subst this
    simp
  exact key _ (by simp) _ (by simp)

end

/-! ### Kruskal's algorithm with a table of classes -/

section
variable {n : Nat}

/-- `kruskal` with the classes in a list. -/
def kruskalTable : List (Fin n × Fin n) → List (Fin n) → List (Fin n × Fin n) → List (Fin n × Fin n)
  | [], _, acc => acc
  | e :: es, cl, acc =>
    if cl.getD e.1.val e.1 = cl.getD e.2.val e.2 then kruskalTable es cl acc
    else kruskalTable es (cl.map fun x => if x = cl.getD e.1.val e.1 then cl.getD e.2.val e.2 else x)
      (acc ++ [e])

theorem kruskalTable_eq (es : List (Fin n × Fin n)) : ∀ (c : Fin n → Fin n) (cl : List (Fin n))
    (acc : List (Fin n × Fin n)), cl.length = n → (∀ x : Fin n, cl.getD x.val x = c x) →
    (es.foldl kruskalStep (c, acc)).2 = kruskalTable es cl acc := by
  induction es with
  | nil => intros; rfl
  | cons e es ih =>
    intro c cl acc hlen hc
    rw [List.foldl_cons]
    unfold kruskalTable kruskalStep
    rw [hc, hc]
    dsimp only
    split_ifs with h
    · exact ih c cl acc hlen hc
    · refine ih _ _ _ (by simpa using hlen) fun x => ?_
      unfold mergeClass
      have hx := hc x
      have hlt : x.val < cl.length := by omega
      rw [List.getD_eq_getElem _ _ hlt] at hx
      rw [List.getD_eq_getElem _ _ (by simpa using hlt), List.getElem_map, hx]

theorem kruskal_table (es : List (Fin n × Fin n)) : kruskal es = kruskalTable es (List.finRange n) [] :=
  kruskalTable_eq es _ _ _ (by simp) (by intro x; simp)

end

/-- The links of the spanning tree but the one between the first two areas. -/
def columnLinks : Finset (Fin 9 × Fin 9) :=
  {(0, 3), (1, 2), (1, 4), (2, 5), (3, 6), (4, 7), (5, 8)}

theorem columnLinks_sub : columnLinks ⊆ forestOf .rowMajor duqueAdj := by
  rw [forestOf_connected _ duque_connected]
  unfold MstOrder.mst MstOrder.rowMajor
  rw [kruskal_table]
  decide +kernel

theorem columnLinks_linked (u v : Fin 9) : leftColumn u = leftColumn v ↔ Linked columnLinks u v := by
  have hstep : ∀ a b, decide ((a, b) ∈ columnLinks) = true → leftColumn a = leftColumn b := by decide +kernel
  have hparent : ∀ v : Fin 9, (v = 0 ∨ v = 1) ∨ ∃ u, u < v ∧ decide ((u, v) ∈ columnLinks) = true := by
    decide +kernel
  have hroot : ∀ (m : Nat) (v : Fin 9), v.val = m →
      Linked columnLinks (if leftColumn v = 0 then 0 else 1) v := by
    intro m
    induction m using Nat.strong_induction_on with
    | _ m ih =>
      rintro v rfl
      rcases hparent v with (rfl | rfl) | ⟨u, hu, he⟩
      · exact .refl
      · exact .refl
      · rw [← hstep u v he]
        exact (ih u.val hu u rfl).tail (.inl he)
  constructor
  · intro h
    have h1 := hroot _ u rfl
    rw [h] at h1
    exact (sameIsland_symm h1).trans (hroot _ v rfl)
  · intro h
    induction h with
    | refl => rfl
    | tail _ h ih =>
      refine ih.trans ?_
      rcases h with h | h
      · exact hstep _ _ h
      · exact (hstep _ _ h).symm

section
variable {d : Fin 9 → Fin 9 → ℚ} {c : ℚ}

/-- `duque_too_far` for labels that name the regions differently. -/
theorem duque_too_far' (h : DuqueLike d c) {j : Nat} (hj : j < 5) {init out : Labels 9}
    (hi : SamePartition init leftColumn)
    (hd : Descent duqueAdj (fun L => withinPairs L d) j init out) : ¬ SamePartition out duqueLabels := by
  have hn : numRegions init = 2 := (numRegions_congr hi).trans leftColumn_feasible.2
  obtain ⟨m, x, y, hm, h0⟩ := exists_twoReg_with hn 0
  have hbit : ∀ i k : Fin 9, m.testBit i.val = m.testBit k.val ↔ leftColumn i = leftColumn k := by
    intro i k
    rw [← hi i k]
    exact hm.same i k
  have hall : ∀ m < 2 ^ 9, m.testBit 0 = true →
      (∀ i k : Fin 9, m.testBit i.val = m.testBit k.val ↔ leftColumn i = leftColumn k) →
      m = 0b001001001 := by decide +kernel
  obtain rfl := hall m hm.lt h0 hbit
  exact duque_too_far hm h hj hd

end

end Region
