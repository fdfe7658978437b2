import Verif.Lemmas.ReactIslands
import Verif.Props.ReactExact
/-
Property theorems C131: the result of the reactive tabu search on maps with islands.
-/
namespace Region.Props

open Region Spec

section
variable {n q : Nat} {ρ : Type} (expf : ℚ → ℚ) {metric : ρ → ρ → ℚ} (hd : Dissimilarity metric) {k1 : Int}
  (hk1 : 1 ≤ k1) (k2 : Int) {maxIt : Nat} (hm : 1 ≤ maxIt)
include hd hk1 hm

/-- C131 on any map: from a given start `fit` on a new object works on the islands in the order of their first
areas.  It returns exactly what the described procedure says for them, raises `AttributeError` exactly if an island
runs out of moves, and `ValueError` exactly if an island is to get the labels of one of another size; nothing else
can happen, whatever the random numbers. -/
theorem c131_islands (o : MstOrder) {adj : Adj n} (hs : Spec.Symmetric adj) {us : List (Fin n)} (hus : FirstOfEach adj us)
    (attr : Fin n → ρ) {p : Nat} {init : Labels n} (hi : Feasible adj init p) (hfree : ∀ v, init v ≠ -1) (v : ℚ)
    (rng : Rng) :
    (∀ L, (∃ self' rng', reactiveTabuFit (q := q) o expf (pairwise metric) maxIt k1 k2 adj attr p (some init)
        (.fresh (.azp v)) rng = .ok (L, self', rng')) ↔
      ∃ last, ReactIslands adj (fun u => dissimilarity fun a b : Island adj u => metric (attr a) (attr b)) maxIt init L us
        none last) ∧
    (reactiveTabuFit (q := q) o expf (pairwise metric) maxIt k1 k2 adj attr p (some init)
        (.fresh (.azp v)) rng = .raise .attributeError ↔
      NoMoveLeft adj (fun u => dissimilarity fun a b : Island adj u => metric (attr a) (attr b)) maxIt init us) ∧
    (reactiveTabuFit (q := q) o expf (pairwise metric) maxIt k1 k2 adj attr p (some init)
        (.fresh (.azp v)) rng = .raise (.valueError "shape mismatch") ↔
      WrongSize adj (fun u => dissimilarity fun a b : Island adj u => metric (attr a) (attr b)) maxIt init us) ∧
    ((∃ L last, ReactIslands adj (fun u => dissimilarity fun a b : Island adj u => metric (attr a) (attr b)) maxIt init L
        us none last) ∨
      NoMoveLeft adj (fun u => dissimilarity fun a b : Island adj u => metric (attr a) (attr b)) maxIt init us ∨
      WrongSize adj (fun u => dissimilarity fun a b : Island adj u => metric (attr a) (attr b)) maxIt init us) := by
  have hval : ∀ u (L L' : Island adj u → Int),
      (pairwise metric).call (L ∘ islandEquiv adj init hfree u) (fun i => attr ((areasOf adj init u).get i)) <
        (pairwise metric).call (L' ∘ islandEquiv adj init hfree u) (fun i => attr ((areasOf adj init u).get i)) ↔
      dissimilarity (fun a b : Island adj u => metric (attr a) (attr b)) L <
        dissimilarity (fun a b : Island adj u => metric (attr a) (attr b)) L' := by
    intro u L L'
    rw [pairwise_island hd.symm attr init hfree, pairwise_island hd.symm attr init hfree]
    exact div_lt_div_iff_of_pos_right (by norm_num)
  rcases reactFit_islands (q := q) (expf := expf) (k2 := k2) o (pairwise_exact hd.symm hd.zero) (pairwise_total metric) hs
    hk1 hm hi.1 (p := p) (by exact_mod_cast hi.2) hfree hval hus v rng with ⟨L, s, r, last, h1, h2⟩ | ⟨h1, h2⟩ | ⟨h1, h2⟩
  · rw [h1]
    refine ⟨fun L' => ⟨?_, ?_⟩, ⟨fun h => (nomatch h), fun h => ?_⟩, ⟨fun h => (nomatch h), fun h => ?_⟩, .inl ⟨L, last, h2⟩⟩
    · rintro ⟨_, _, h⟩
      cases h
      exact ⟨last, h2⟩
    · rintro ⟨last', h⟩
      have := (reactIslands_unique h2 h).2
      have : L' = L := by
        funext v
        obtain ⟨u, hu, huv⟩ := hus.2.2 v
        exact (congrFun (this u hu) ⟨v, huv⟩).symm
      rw [this]
      exact ⟨s, r, rfl⟩
    · exact (stopAt_not fails1_not (noMoveLeft_iff.1 h) h2).elim
    · exact (stopAt_not wrong1_not (wrongSize_iff.1 h) h2).elim
  · rw [h1]
    refine ⟨fun L' => ⟨?_, ?_⟩, ⟨fun _ => h2, fun _ => rfl⟩, ⟨fun h => (nomatch h), fun h => ?_⟩, .inr (.inl h2)⟩
    · rintro ⟨_, _, h⟩
      cases h
    · rintro ⟨last', h⟩
      exact (stopAt_not fails1_not (noMoveLeft_iff.1 h2) h).elim
    · exact (stopAt_excl fails1_not wrong1_not (fun a b => wrong1_not_fails1 b a) (noMoveLeft_iff.1 h2)
        (wrongSize_iff.1 h)).elim
  · rw [h1]
    refine ⟨fun L' => ⟨?_, ?_⟩, ⟨fun h => (nomatch h), fun h => ?_⟩, ⟨fun _ => h2, fun _ => rfl⟩, .inr (.inr h2)⟩
    · rintro ⟨_, _, h⟩
      cases h
    · rintro ⟨last', h⟩
      exact (stopAt_not wrong1_not (wrongSize_iff.1 h2) h).elim
    · exact (stopAt_excl fails1_not wrong1_not (fun a b => wrong1_not_fails1 b a) (noMoveLeft_iff.1 h)
        (wrongSize_iff.1 h2)).elim

/-- C131 on any map without initial labels: the procedure starts from any clustering one gets by cutting links of a
certain spanning forest. -/
theorem c131_islands_scratch (o : MstOrder) {adj : Adj n} (hs : Spec.Symmetric adj) {us : List (Fin n)}
    (hus : FirstOfEach adj us) :
    ∃ T, SpanningLinks adj T ∧ ∀ (attr : Fin n → ρ) {p : Nat}, 2 ≤ p → p ≤ n → us.length ≤ p → ∀ (v : ℚ) (L : Labels n),
    (∃ rng self' rng', reactiveTabuFit (q := q) o expf (pairwise metric) maxIt k1 k2 adj attr p none
      (.fresh (.azp v)) rng = .ok (L, self', rng')) ↔
      ∃ init, CutFrom adj T p init ∧ ∃ last, ReactIslands adj
        (fun u => dissimilarity fun a b : Island adj u => metric (attr a) (attr b)) maxIt init L us none last := by
  refine ⟨forestOf o adj, forestOf_spans, fun attr p h2 hpn hlen v L => ?_⟩
  have hcn : nComponents adj ≤ p := by
    have := congrArg List.length (firstOfEach_range hus)
    rw [List.length_map, List.length_range] at this
    omega
  have key := fun self' => reactFit_none_iff (q := q) o expf (pairwise metric) maxIt k1 k2 adj attr h2 hpn hcn
    (.fresh (.azp v)) self' L
  have exact' : ∀ init, CutFrom adj (forestOf o adj) p init → ∀ rng, _ := fun init h rng =>
    (c131_islands (q := q) expf hd hk1 k2 hm o hs hus attr
      ⟨(cutFrom_startable h).contiguous, (cutFrom_startable h).number⟩ (cutFrom_startable h).named v rng).1 L
  constructor
  · rintro ⟨rng, self', rng', h⟩
    obtain ⟨init, hi, rng1, rng1', h1⟩ := (key self').1 ⟨rng, rng', h⟩
    exact ⟨init, hi, (exact' init hi rng1).1 ⟨self', rng1', h1⟩⟩
  · rintro ⟨init, hi, h⟩
    obtain ⟨self', rng', h1⟩ := (exact' init hi fun _ => 0).2 h
    obtain ⟨rng2, rng2', h2⟩ := (key self').2 ⟨init, hi, _, rng', h1⟩
    exact ⟨rng2, self', rng2', h2⟩

end

theorem islands33_first : FirstOfEach islands33 [0, 3] := by
  have hl : ∀ v, compLabels islands33 v = if v.val < 3 then 0 else 1 := by decide +kernel
  have hs : ∀ a b, SameIsland islands33 a b ↔ (a.val < 3 ↔ b.val < 3) := by
    intro a b
    rw [← compLabels_eq_iff, hl, hl]
    split_ifs <;> simp_all <;> omega
  refine ⟨by decide, ?_, ?_⟩
  · intro u hu v hv
    rw [hs] at hv
    revert u v
    decide
  · intro v
    simp only [hs]
    revert v
    decide

/-- `fit` of a new object on two islands of three areas. -/
def reactIsles (values : Fin 6 → ℚ) (init : Labels 6) : Res (List Int) := do
  let a ← reactiveTabuFit (q := 0) .rowMajor (fun _ => 0) (pairwise manhattan) 10 1 1 islands33 (column values) 4
    (some init) (.fresh (.azp 0)) fun _ => 0
  .ok (arrayList a.1)

/-- Both islands stay as they are at first, and the second gets the labels of the first. -/
example : ∃ last, ReactIslands islands33 (fun u => dissimilarity fun a b : Island islands33 u =>
    manhattan (column ![0, 0, 5, 0, 0, 5] a) (column ![0, 0, 5, 0, 0, 5] b)) 10 ![0, 0, 1, 2, 2, 3] ![0, 0, 1, 0, 0, 1]
    [0, 3] none last := by
  have hi := (c04_assert_feasible_ok (![0, 0, 1, 2, 2, 3] : Labels 6) islands33 (some 4)).1 (by decide +kernel)
  refine ((c131_islands (q := 0) (fun _ => 0) manhattan_dissimilarity (k1 := 1) (by decide) 1 (maxIt := 10) (by decide)
    .rowMajor (adj := islands33) (by unfold Spec.Symmetric; decide) islands33_first (column ![0, 0, 5, 0, 0, 5]) (p := 4)
    ⟨hi.1, by exact_mod_cast hi.2 4 rfl⟩ (by decide) 0 fun _ => 0).1 _).1 ?_
  have h : reactIsles ![0, 0, 5, 0, 0, 5] ![0, 0, 1, 2, 2, 3] = .ok (arrayList (![0, 0, 1, 0, 0, 1] : Labels 6)) := by
    decide +kernel
  unfold reactIsles at h
  rw [Res.bind_eq_ok] at h
  obtain ⟨⟨L, s, r⟩, h1, h2⟩ := h
  rw [Res.ok.injEq] at h2
  rw [← arrayList_inj h2]
  exact ⟨s, r, h1⟩

/-- Two islands of four and three areas. -/
def islands43 : Adj 7 := fun i j => decide ((i.val + 1 = j.val ∨ j.val + 1 = i.val) ∧ (i.val < 4 ↔ j.val < 4))

theorem islands43_first : FirstOfEach islands43 [0, 4] := by
  have hl : ∀ v, compLabels islands43 v = if v.val < 4 then 0 else 1 := by decide +kernel
  have hs : ∀ a b, SameIsland islands43 a b ↔ (a.val < 4 ↔ b.val < 4) := by
    intro a b
    rw [← compLabels_eq_iff, hl, hl]
    split_ifs <;> simp_all <;> omega
  refine ⟨by decide, ?_, ?_⟩
  · intro u hu v hv
    rw [hs] at hv
    revert u v
    decide
  · intro v
    simp only [hs]
    revert v
    decide

/-- The smaller island is to get the labels of the larger one. -/
example : WrongSize islands43 (fun u => dissimilarity fun a b : Island islands43 u =>
    manhattan (column ![0, 0, 5, 5, 0, 0, 5] a) (column ![0, 0, 5, 5, 0, 0, 5] b)) 10 ![0, 0, 1, 1, 2, 2, 3] [0, 4] := by
  have hi := (c04_assert_feasible_ok (![0, 0, 1, 1, 2, 2, 3] : Labels 7) islands43 (some 4)).1 (by decide +kernel)
  refine (c131_islands (q := 0) (fun _ => 0) manhattan_dissimilarity (k1 := 1) (by decide) 1 (maxIt := 10) (by decide)
    .rowMajor (adj := islands43) (by unfold Spec.Symmetric; decide) islands43_first (column ![0, 0, 5, 5, 0, 0, 5]) (p := 4)
    ⟨hi.1, by exact_mod_cast hi.2 4 rfl⟩ (by decide) 0 fun _ => 0).2.2.1.1 ?_
  have h := c38_wrong_length
  revert h
  change (match reactiveTabuFit (q := 0) .rowMajor (fun _ => 0) (pairwise manhattan) 10 1 1 islands43
    (column ![0, 0, 5, 5, 0, 0, 5]) ((4 : Nat) : Int) (some ![0, 0, 1, 1, 2, 2, 3]) (ReactSelf.fresh (.azp 0))
    (fun _ => 0) with
      | .raise (.valueError m) => m
      | _ => "") = "shape mismatch" → _
  generalize reactiveTabuFit (q := 0) _ _ _ _ _ _ _ _ _ _ _ _ = r
  intro h
  rcases r with a | e | _
  · simp at h
  · cases e <;> simp_all
  · simp at h

/-- The second island runs out of moves. -/
example : NoMoveLeft islands33 (fun u => dissimilarity fun a b : Island islands33 u =>
    manhattan (column ![0, 0, 5, 0, 0, 5] a) (column ![0, 0, 5, 0, 0, 5] b)) 10 ![0, 0, 1, 2, 3, 4] [0, 3] := by
  have hi := (c04_assert_feasible_ok (![0, 0, 1, 2, 3, 4] : Labels 6) islands33 (some 5)).1 (by decide +kernel)
  refine (c131_islands (q := 0) (fun _ => 0) manhattan_dissimilarity (k1 := 1) (by decide) 1 (maxIt := 10) (by decide)
    .rowMajor (adj := islands33) (by unfold Spec.Symmetric; decide) islands33_first (column ![0, 0, 5, 0, 0, 5]) (p := 5)
    ⟨hi.1, by exact_mod_cast hi.2 5 rfl⟩ (by decide) 0 fun _ => 0).2.1.1 ?_
  have h : (do
      let a ← reactiveTabuFit (q := 0) .rowMajor (fun _ => 0) (pairwise manhattan) 10 1 1 islands33
        (column ![0, 0, 5, 0, 0, 5]) (5 : Nat) (some ![0, 0, 1, 2, 3, 4]) (.fresh (.azp 0)) fun _ => 0
      .ok (arrayList a.1) : Res (List Int)) = .raise .attributeError := by decide +kernel
  rw [Res.bind_eq_raise] at h
  rcases h with h | ⟨_, _, h⟩
  · exact h
  · cases h

end Region.Props
