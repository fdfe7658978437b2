import Verif.Props.Start
/-
Property theorems C106: each cut of `_randomly_divide_connected_graph` is the most balanced of five.
-/
namespace Region.Props

open Region Spec Res

theorem linked_toFinset {n : Nat} (T : List (Fin n × Fin n)) (a b : Fin n) :
    Linked T.toFinset a b ↔ SameIsland (adjOf T) a b := by
  unfold Linked adjOf
  simp

/-- `max(np.unique(labels, return_counts=True)[1])` is the size of the largest piece. -/
theorem maxComponentSize_eq {n : Nat} (hn : 0 < n) (T : List (Fin n × Fin n)) :
    maxComponentSize (adjOf T) = some (largestPiece T) := by
  obtain ⟨s, hs⟩ := maxComponentSize_isSome hn (adjOf T)
  rw [hs]
  congr 1
  have hcount : ∀ v, (arrayList (compLabels (adjOf T))).count (compLabels (adjOf T) v) =
      {u | Linked T.toFinset v u}.ncard := by
    intro v
    rw [count_arrayList, ← List.toFinset_card_of_nodup (whereEq_nodup _ _), ← Set.ncard_coe_finset]
    congr 1
    ext u
    simp only [List.coe_toFinset, Set.mem_ofPred_eq, mem_whereEq]
    rw [linked_toFinset, compLabels_eq_iff]
    exact ⟨sameIsland_symm, sameIsland_symm⟩
  unfold maxComponentSize uniqueCounts at hs
  rw [List.max?_eq_some_iff] at hs
  obtain ⟨h1, h2⟩ := hs
  simp only [List.mem_map, List.mem_eraseDups, mem_arrayList] at h1 h2
  apply le_antisymm
  · obtain ⟨p, ⟨c, ⟨v, rfl⟩, rfl⟩, rfl⟩ := h1
    dsimp only
    rw [hcount]
    exact Finset.le_sup (f := fun v => {u | Linked T.toFinset v u}.ncard) (Finset.mem_univ v)
  · refine Finset.sup_le fun v _ => ?_
    rw [← hcount]
    exact h2 _ ⟨_, ⟨_, ⟨v, rfl⟩, rfl⟩, rfl⟩

theorem mostBalanced_unique {n : Nat} {T tried : List (Fin n × Fin n)} {e e' : Fin n × Fin n}
    (h : MostBalanced T tried e) (h' : MostBalanced T tried e') : e = e' := by
  obtain ⟨b, a, h1, h2, h3⟩ := h
  obtain ⟨b', a', h1', h2', h3'⟩ := h'
  rw [h1] at h1'
  clear h1
  induction b generalizing b' with
  | nil =>
    cases b' with
    | nil => exact (List.cons.inj h1').1
    | cons x b' =>
      obtain ⟨rfl, h⟩ := List.cons.inj h1'
      have := h2' e (by simp)
      have := h3 e' (by rw [h]; simp)
      omega
  | cons x b ih =>
    cases b' with
    | nil =>
      obtain ⟨rfl, h⟩ := List.cons.inj h1'
      have := h2 x (by simp)
      have := h3' e (by rw [← h]; simp)
      omega
    | cons y b' =>
      obtain ⟨rfl, h⟩ := List.cons.inj h1'
      exact ih (fun x hx => h2 x (by simp [hx])) b' h (fun x hx => h2' x (by simp [hx]))

/-- What the tries of one cut find. -/
theorem tryLinks_eq {n : Nat} (hn : 0 < n) {T : List (Fin n × Fin n)} (h0 : 0 < T.length) :
    ∀ (t : Nat) (r : Rng) (b : Fin n × Fin n), ∃ e,
      tryLinks T t (some (b, largestPiece (T.erase b))) r =
        .ok (some (e, largestPiece (T.erase e)), fun i => r (i + t)) ∧
      MostBalanced T (b :: (List.range t).map fun i => T[r i % T.length]'(Nat.mod_lt _ h0)) e := by
  intro t
  induction t with
  | zero => exact fun r b => ⟨b, rfl, [], [], rfl, by simp, by simp⟩
  | succ t ih =>
    intro r b
    have hdraw : randomElementFrom T r = .ok (T[r 0 % T.length]'(Nat.mod_lt _ h0), r.next) := by
      unfold randomElementFrom
      rw [randrange_pos h0]
      simp [Nat.mod_lt _ h0]
    set x := T[r 0 % T.length]'(Nat.mod_lt _ h0) with hx
    have hlist : (List.range (t + 1)).map (fun i => T[r i % T.length]'(Nat.mod_lt _ h0)) =
        x :: (List.range t).map fun i => T[r.next i % T.length]'(Nat.mod_lt _ h0) := by
      rw [List.range_succ_eq_map, List.map_cons, List.map_map]
      rfl
    rw [hlist]
    unfold tryLinks
    rw [hdraw, Res.bind_ok]
    dsimp only
    rw [maxComponentSize_eq hn]
    dsimp only
    split_ifs with hlt
    · obtain ⟨e, h1, b1, a1, h2, h3, h4⟩ := ih r.next x
      refine ⟨e, ?_, ?_⟩
      · rw [h1]
        rfl
      · refine ⟨b :: b1, a1, by rw [h2]; rfl, ?_, h4⟩
        intro y hy
        rcases List.mem_cons.1 hy with rfl | hy
        · cases b1 with
          | nil =>
            rw [List.nil_append] at h2
            rw [← (List.cons.inj h2).1]; exact hlt
          | cons z b1 =>
            have := h3 x (by rw [(List.cons.inj h2).1]; simp)
            omega
        · exact h3 y hy
    · obtain ⟨e, h1, b1, a1, h2, h3, h4⟩ := ih r.next b
      refine ⟨e, ?_, ?_⟩
      · rw [h1]
        rfl
      · cases b1 with
        | nil =>
          rw [List.nil_append] at h2
          obtain ⟨rfl, h5⟩ := List.cons.inj h2
          refine ⟨[], x :: a1, by rw [h5]; rfl, by simp, ?_⟩
          intro y hy
          rcases List.mem_cons.1 hy with rfl | hy
          · omega
          · exact h4 y hy
        | cons z b1 =>
          rw [List.cons_append] at h2
          obtain ⟨rfl, h5⟩ := List.cons.inj h2
          refine ⟨b :: x :: b1, a1, by rw [h5]; rfl, ?_, h4⟩
          intro y hy
          have hb := h3 b (by simp)
          simp only [List.mem_cons] at hy
          rcases hy with rfl | rfl | hy
          · exact hb
          · omega
          · exact h3 y (by simp [hy])

theorem cutLinks_eq {n : Nat} (hn : 0 < n) : ∀ (k : Nat) (T : List (Fin n × Fin n)) (r : Rng),
    k ≤ T.length → ∃ T', cutLinks k T r = .ok (T', fun i => r (i + 5 * k)) ∧ BestOfFive r k T T' := by
  intro k
  induction k with
  | zero => exact fun T r _ => ⟨T, rfl, .done r T⟩
  | succ k ih =>
    intro T r hk
    have h0 : 0 < T.length := by omega
    have hdraw : randomElementFrom T r = .ok (T[r 0 % T.length]'(Nat.mod_lt _ h0), r.next) := by
      unfold randomElementFrom
      rw [randrange_pos h0]
      simp [Nat.mod_lt _ h0]
    obtain ⟨e, h1, h2⟩ := tryLinks_eq hn h0 4 r.next (T[r 0 % T.length]'(Nat.mod_lt _ h0))
    have h3 : tryLinks T 5 none r = .ok (some (e, largestPiece (T.erase e)), fun i => r (i + 5)) := by
      unfold tryLinks
      rw [hdraw, Res.bind_ok]
      dsimp only
      rw [maxComponentSize_eq hn]
      dsimp only
      rw [h1]
      rfl
    have h4 : MostBalanced T ((List.range 5).map fun i => T[r i % T.length]'(Nat.mod_lt _ h0)) e := by
      rw [List.range_succ_eq_map, List.map_cons, List.map_map]
      exact h2
    have heT : e ∈ T := by
      obtain ⟨b, a, h, -⟩ := h4
      have : e ∈ (List.range 5).map fun i => T[r i % T.length]'(Nat.mod_lt _ h0) := by rw [h]; simp
      obtain ⟨i, -, rfl⟩ := List.mem_map.1 this
      exact List.getElem_mem _
    obtain ⟨T', h5, h6⟩ := ih (T.erase e) (fun i => r (i + 5)) (by
      rw [List.length_erase_of_mem heT]; omega)
    refine ⟨T', ?_, .cut r k T T' e h0 h4 h6⟩
    unfold cutLinks
    rw [h3, Res.bind_ok]
    dsimp only
    rw [h5]
    congr 3

theorem bestOfFive_unique {n : Nat} {r : Nat → Nat} {k : Nat} {T T' T'' : List (Fin n × Fin n)}
    (h : BestOfFive r k T T') (h' : BestOfFive r k T T'') : T' = T'' := by
  induction h with
  | done r T => cases h'; rfl
  | cut r k T T' e h0 he _ ih =>
    cases h' with
    | cut _ _ _ _ e' _ he' h =>
      have := mostBalanced_unique he he'
      subst this
      exact ih h

/-- C106: `_randomly_divide_connected_graph` for a connected graph and an admissible number of regions: for
some listing `T` of the links of a spanning tree, the same for all numbers of regions and all draws, the
labels are the numbers of the pieces left after the cuts; every cut is the most balanced of five drawn
links.  Five numbers are drawn for every cut. -/
theorem c106_divide (o : MstOrder) {n : Nat} {adj : Adj n} (hc : Connected adj) :
    ∃ T : List (Fin n × Fin n), T.Nodup ∧ SpanningLinks adj T.toFinset ∧ ∀ p : Nat, 1 ≤ p → p ≤ n →
      ∀ (r r' : Rng) (labs : Fin n → Nat), randomlyDivide o adj p r = .ok (labs, r') ↔
        (∃ T', BestOfFive r (p - 1) T T' ∧ labs = compLabels (adjOf T')) ∧
          r' = fun i => r (i + 5 * (p - 1)) := by
  obtain ⟨h1, h2, h3, h4, h5⟩ := mst_spec o adj
  have hone := (nComponents_eq_one_iff adj).2 hc
  refine ⟨o.mst adj, h1.1, ⟨?_, ?_, ?_⟩, ?_⟩
  · exact fun e he => h2 e (List.mem_toFinset.1 he)
  · exact fun a b hab => (linked_toFinset _ _ _).2 ((h3 a b).2 hab)
  · intro e he hl
    rw [List.mem_toFinset] at he
    refine h1.2 e he ((linked_toFinset _ _ _).1 ?_)
    rwa [show ((o.mst adj).erase e).toFinset = (o.mst adj).toFinset.erase e from ?_]
    ext x
    rw [List.mem_toFinset, h1.1.mem_erase_iff, Finset.mem_erase, List.mem_toFinset]
  · intro p hp1 hpn r r' labs
    obtain ⟨T', h6, h7⟩ := cutLinks_eq (by omega : 0 < n) (p - 1) (o.mst adj) r (by omega)
    have heq : randomlyDivide o adj p r = .ok (compLabels (adjOf T'), fun i => r (i + 5 * (p - 1))) := by
      unfold randomlyDivide
      rw [if_neg (by omega), if_neg (by omega), show ((p : Int) - 1).toNat = p - 1 by omega, h6]
      rfl
    rw [heq]
    constructor
    · intro h
      cases h
      exact ⟨⟨T', h7, rfl⟩, rfl⟩
    · rintro ⟨⟨T'', h8, rfl⟩, rfl⟩
      rw [bestOfFive_unique h7 h8]

/-- The hypotheses are met by a path of four areas.  If every draw is 0 the end is cut off, … -/
theorem c106_unbalanced : (match randomlyDivide .rowMajor path4 2 (fun _ => 0) with
    | .ok (labs, _) => arrayList labs | _ => []) = [0, 1, 1, 1] := by decide +kernel

/-- … if the fourth draw is the middle link, the path is halved. -/
theorem c106_balanced : (match randomlyDivide .rowMajor path4 2 (fun i => if i = 3 then 1 else 0) with
    | .ok (labs, _) => arrayList labs | _ => []) = [0, 0, 1, 1] := by decide +kernel

example := c106_divide .rowMajor (adj := path4) ((nComponents_eq_one_iff path4).1 (by decide +kernel))

end Region.Props
