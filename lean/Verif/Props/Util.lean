import Mathlib.Algebra.BigOperators.Group.List.Basic
import Mathlib.Data.Fin.VecNotation
import Verif.Lemmas.InitialSol
import Verif.Lemmas.Lists
/-
Property theorems C01-C07, C09-C11, C16: graph helpers, feasibility check, initial solution.
-/
namespace Region.Props

open Region Spec

/-! ### C01 -/

/-- C01: `is_connected` decides connectedness (and is `False` on the graph without nodes). -/
theorem c01_is_connected {n : Nat} (adj : Adj n) : isConnected adj = true ↔ Connected adj :=
  isConnected_iff adj

/-- C01, the empty graph. -/
theorem c01_empty (adj : Adj 0) : isConnected adj = false := by
  rw [← Bool.not_eq_true, c01_is_connected]
  rintro ⟨⟨v⟩, _⟩
  exact v.elim0

/-- The path 0-1-2-3 (used in the examples below). -/
def path4 : Adj 4 := fun i j => decide (i.val + 1 = j.val) || decide (j.val + 1 = i.val)
/-- Two islands 0-1 and 2-3. -/
def islands4 : Adj 4 := fun i j => decide (i.val / 2 = j.val / 2) && decide (i ≠ j)
/-- A directed edge only: 0 → 1. -/
def arrow2 : Adj 2 := fun i j => decide (i = 0) && decide (j = 1)

example : isConnected path4 = true := by decide +kernel
example : isConnected islands4 = false := by decide +kernel
example : isConnected arrow2 = true := by decide +kernel

/-! ### C02 -/

/-- C02: rows and columns of `sub_adj_matrix` are the given nodes without the excluded ones, in
the same order, and its entries are those of the big matrix. -/
theorem c02_sub_adj_matrix {n : Nat} (adj : Adj n) (nodes wo : List (Fin n)) :
    (dropNodes nodes wo).Sublist nodes ∧
    (∀ x, x ∈ dropNodes nodes wo ↔ x ∈ nodes ∧ x ∉ wo) ∧
    (∀ i j, subAdjWo adj nodes wo i j =
      adj ((dropNodes nodes wo).get i) ((dropNodes nodes wo).get j)) :=
  ⟨List.filter_sublist, fun _ => mem_dropNodes, fun _ _ => rfl⟩

/-- C02: `neighbors` lists exactly the areas with a stored entry, each once, ascending. -/
theorem c02_neighbors {n : Nat} (adj : Adj n) (a b : Fin n) :
    (b ∈ neighbors adj a ↔ adj a b = true) ∧ (neighbors adj a).Pairwise (· < ·) :=
  ⟨mem_neighbors, (List.pairwise_lt_finRange n).filter _⟩

/-- C02: `is_connected(sub_adj_matrix(adj, nodes, wo_nodes))` says whether the nodes that are not
excluded form a spatially contiguous set. -/
theorem c02_contiguity_check {n : Nat} (adj : Adj n) (nodes wo : List (Fin n))
    (hn : nodes.Nodup) :
    isConnected (subAdjWo adj nodes wo) = true ↔
      Contiguous adj {x | x ∈ nodes ∧ x ∉ wo} := by
  unfold subAdjWo
  rw [isConnected_subAdj adj (dropNodes_nodup hn wo)]
  have : {x | x ∈ dropNodes nodes wo} = {x | x ∈ nodes ∧ x ∉ wo} := by
    ext x; simp [mem_dropNodes]
  rw [this]

example : isConnected (subAdjWo path4 [0, 1, 2, 3] [3]) = true ∧
    isConnected (subAdjWo path4 [0, 1, 2, 3] [1]) = false := by decide +kernel

/-! ### C03 -/

/-- C03: `separate_components` yields one array per island; the array of an island keeps the
labels of its areas and is -1 elsewhere. -/
theorem c03_separate_components {n : Nat} (adj : Adj n) (labels : Labels n) :
    ∃ island : Fin n → Nat,
      (∀ a b, island a = island b ↔ SameIsland adj a b) ∧
      (∀ v, island v < (separateComponents adj labels).length) ∧
      (∀ c, c < (separateComponents adj labels).length → ∃ v, island v = c) ∧
      ∀ c (h : c < (separateComponents adj labels).length) v,
        (separateComponents adj labels)[c] v = if island v = c then labels v else -1 := by
  refine ⟨compLabels adj, compLabels_eq_iff adj, ?_, ?_, ?_⟩
  · intro v; rw [separateComponents_length]; exact compLabels_lt adj v
  · intro c hc; rw [separateComponents_length] at hc; exact compLabels_surj adj hc
  · intro c h v; rw [separateComponents_getElem]

example : (separateComponents islands4 ![5, 6, 7, 7]).map arrayList =
    [[5, 6, -1, -1], [-1, -1, 7, 7]] := by decide +kernel

/-! ### C04 -/

/-- C04: `assert_feasible` returns normally exactly for feasible clusterings … -/
theorem c04_assert_feasible_ok {n : Nat} (solution : Labels n) (adj : Adj n)
    (nRegions : Option Int) :
    assertFeasible solution adj nRegions = .ok () ↔
      AllContiguous adj solution ∧ ∀ p, nRegions = some p → (numRegions solution : Int) = p := by
  unfold assertFeasible
  dsimp only
  rw [length_unique_labels]
  cases nRegions with
  | none =>
    dsimp only
    rw [assertLoop_ok_iff, allContiguous_iff]; simp
  | some p =>
    dsimp only
    by_cases h : (numRegions solution : Int) = p
    · rw [if_neg (not_not.2 h), assertLoop_ok_iff, allContiguous_iff]; simp [h]
    · rw [if_pos h]; simp [h]

/-- C04: … and raises `ValueError` otherwise. -/
theorem c04_assert_feasible_raises {n : Nat} (solution : Labels n) (adj : Adj n)
    (nRegions : Option Int) :
    (∃ m, assertFeasible solution adj nRegions = .raise (.valueError m)) ↔
      ¬ (AllContiguous adj solution ∧
        ∀ p, nRegions = some p → (numRegions solution : Int) = p) := by
  rw [← c04_assert_feasible_ok]
  unfold assertFeasible
  have h := assertLoop_cases solution adj (uniqueSorted (arrayList solution))
  cases nRegions with
  | none => dsimp only; rcases h with h | ⟨m, h⟩ <;> simp [h]
  | some p =>
    dsimp only
    split_ifs with hp
    · simp
    · rcases h with h | ⟨m, h⟩ <;> simp [h]

/-- C04: `boolean_assert_feasible` agrees on contiguity (but still raises on a wrong number of
regions instead of returning `False`). -/
theorem c04_boolean_assert_feasible {n : Nat} (solution : Labels n) (adj : Adj n)
    (nRegions : Option Int) :
    (∀ b, booleanAssertFeasible solution adj nRegions = .ok b →
      (b = true ↔ AllContiguous adj solution)) ∧
    ((∃ b, booleanAssertFeasible solution adj nRegions = .ok b) ↔
      ∀ p, nRegions = some p → (numRegions solution : Int) = p) ∧
    ((∀ b, booleanAssertFeasible solution adj nRegions ≠ .ok b) →
      ∃ m, booleanAssertFeasible solution adj nRegions = .raise (.valueError m)) := by
  have hall : (((uniqueSorted (arrayList solution)).map fun r =>
      isConnected (subAdj adj (whereEq solution r))).all id = true) ↔
      AllContiguous adj solution := by
    rw [← allContiguous_iff]
    simp [isConnected_subAdj_whereEq]
  unfold booleanAssertFeasible
  dsimp only
  rw [length_unique_labels]
  cases nRegions with
  | none =>
    refine ⟨?_, by simp, by simp⟩
    intro b hb; cases hb; exact hall
  | some p =>
    dsimp only
    by_cases hp : (numRegions solution : Int) = p
    · rw [if_neg (not_not.2 hp)]
      refine ⟨?_, by simp [hp], by simp⟩
      intro b hb; cases hb; exact hall
    · rw [if_pos hp]
      refine ⟨by simp, ?_, by simp⟩
      constructor
      · rintro ⟨b, hb⟩; cases hb
      · intro h; exact absurd (h p rfl) hp

example : assertFeasible ![0, 0, 1, 1] path4 (some 2) = .ok () := by decide +kernel
example : (assertFeasible ![0, 1, 0, 1] path4 (some 2)).isRaise = true := by decide +kernel

/-- The error message reports the number of areas, not the number of regions. -/
theorem c04_message_counts_areas :
    assertFeasible ![0, 0, 0, 0] path4 (some 2) =
      .raise (.valueError "The number of regions is 4 but should be 2") ∧
    numRegions (![0, 0, 0, 0] : Labels 4) = 1 := by
  constructor <;> decide +kernel

/-! ### C05 -/

/-- C05: called with component labels `L` (as numbered by scipy, so that 0 occurs), at least as
many regions as components and at most as many as areas, the function returns, whatever the
random draws; every component gets at least one region and at most as many as it has areas; no
other key is present; the values add up to `n_regions`. -/
theorem c05_distribute (L : List Nat) (p : Int) (r : Rng) (h0 : 0 ∈ L)
    (hlo : (L.toFinset.card : Int) ≤ p) (hhi : p ≤ L.length) :
    ∃ d r', distributeRegions L p r = .ok (d, r') ∧
      d.keys.Nodup ∧ (∀ c, c ∈ d.keys ↔ c ∈ L) ∧
      (∀ c, c ∉ L → d.get c = none) ∧
      (∀ c ∈ L, ∃ v, d.get c = some v ∧ 1 ≤ v ∧ v ≤ L.count c) ∧
      (d.keys.map fun c => (d.get c).getD 0).sum = p := by
  rw [← length_uniqueSorted] at hlo
  obtain ⟨d, r', h1, h2, h3, h4, h5⟩ := distributeRegions_spec L p r h0 hlo hhi
  refine ⟨d, r', h1, ?_, ?_, h4, h5, h3⟩
  · rw [h2]; exact uniqueSorted_nodup L
  · intro c; rw [h2, mem_uniqueSorted]

example : 0 ∈ [0, 0, 1, 0, 0, 1] ∧ (([0, 0, 1, 0, 0, 1] : List Nat).toFinset.card : Int) ≤ 4 ∧
    (4 : Int) ≤ [0, 0, 1, 0, 0, 1].length := by decide

/-! ### C06 -/

/-- C06: `_randomly_divide_connected_graph` returns exactly `k` contiguous regions labelled
`0 … k-1`, for every connected graph, every order in which scipy breaks ties and all random
draws. -/
theorem c06_randomly_divide (o : MstOrder) {n : Nat} (adj : Adj n) (hc : Connected adj) (k : Int)
    (hk1 : 1 ≤ k) (hkn : k ≤ n) (r : Rng) :
    ∃ labs r', randomlyDivide o adj k r = .ok (labs, r') ∧ (∀ v, (labs v : Int) < k) ∧
      (∀ c : Nat, (c : Int) < k → ∃ v, labs v = c) ∧ AllContiguous adj labs :=
  randomlyDivide_spec o adj hc k hk1 hkn r

/-- C06: numbers of regions out of range are rejected with `ValueError`. -/
theorem c06_rejects (o : MstOrder) {n : Nat} (adj : Adj n) (k : Int) (h : k < 1 ∨ (n : Int) < k)
    (r : Rng) : ∃ m, randomlyDivide o adj k r = .raise (.valueError m) := by
  unfold randomlyDivide
  by_cases h1 : k > 0
  · rw [if_neg (by omega), if_pos (by omega)]; exact ⟨_, rfl⟩
  · rw [if_pos h1]; exact ⟨_, rfl⟩

example : Connected path4 := (c01_is_connected _).1 (by decide +kernel)

/-! ### C07 -/

/-- C07: with `1 < n_regions` admissible, `generate_initial_sol` does not raise, whatever the
random draws and however they are interleaved with the consumer's draws; any arrays it can yield
together form a clustering `lab` into exactly `n_regions` contiguous regions `0 … n_regions-1`:
there is one array per island, it shows `lab` on the island and -1 elsewhere. -/
theorem c07_generate_initial_sol (o : MstOrder) {n : Nat} (adj : Adj n) (p : Int) (r : Rng)
    (hn : 0 < n) (hp : p ≤ n) (hp1 : p ≠ 1) (hc : (nComponents adj : Int) ≤ p) :
    ∃ gen r', generateInitialSol o adj p r = .ok (gen, r') ∧
      (∀ s ∈ gen, ∀ r, ∃ y r', s r = .ok (.array y, r')) ∧
      ∀ ys, List.Forall₂ (fun s y => ∃ r r', s r = .ok (.array y, r')) gen ys →
        ∃ (lab : Labels n) (island : Fin n → Nat),
          AllContiguous adj lab ∧ (numRegions lab : Int) = p ∧
          (∀ v, 0 ≤ lab v ∧ lab v < p) ∧
          (∀ a b, island a = island b ↔ SameIsland adj a b) ∧
          (∀ v, island v < ys.length) ∧ (∀ c, c < ys.length → ∃ v, island v = c) ∧
          ∀ c (h : c < ys.length) v, ys[c] v = if island v = c then lab v else -1 := by
  obtain ⟨gen, r', h1, h2, h3⟩ := generateInitialSol_spec o adj p r hn hp hp1 hc
  refine ⟨gen, r', h1, h2, ?_⟩
  intro ys hys
  obtain ⟨lab, e1, e2, e3, e4⟩ := h3 ys hys
  obtain ⟨island, i1, i2, i3, i4⟩ := c03_separate_components adj lab
  subst e1
  refine ⟨lab, island, e2, ?_, e3, i1, i2, i3, i4⟩
  have : Finset.univ.image lab = Finset.Ico (0 : Int) p := by
    ext x
    simp only [Finset.mem_image, Finset.mem_univ, true_and, Finset.mem_Ico]
    constructor
    · rintro ⟨v, rfl⟩; exact e3 v
    · rintro ⟨h1, h2⟩; exact e4 x h1 h2
  unfold numRegions
  rw [this, Int.card_Ico]
  have := hc
  omega

/-- C07: inadmissible arguments raise `ValueError` (for `n_regions = 1` see C08). -/
theorem c07_rejects (o : MstOrder) {n : Nat} (adj : Adj n) (p : Int) (r : Rng)
    (h : n = 0 ∨ (n : Int) < p ∨ (p ≠ 1 ∧ p < nComponents adj)) :
    ∃ m, generateInitialSol o adj p r = .raise (.valueError m) := by
  unfold generateInitialSol
  split_ifs with h1 h2 h3 h4
  · exact ⟨_, rfl⟩
  · exact ⟨_, rfl⟩
  · omega
  · exact ⟨_, rfl⟩
  · omega

/-- The number of components in C07 is the number of islands of the map. -/
theorem c07_nComponents {n : Nat} (adj : Adj n) (f : Fin n → Nat)
    (hf : ∀ a b, f a = f b ↔ SameIsland adj a b) : numRegions f = nComponents adj :=
  card_image_eq_nComponents adj f hf

example : (0 < 4) ∧ (3 : Int) ≤ (4 : Nat) ∧ (3 : Int) ≠ 1 ∧ (nComponents islands4 : Int) ≤ 3 := by
  decide +kernel

/-! ### C09 -/

/-- C09: `array_from_region_list` inverts a partition of `0 … n-1`. -/
theorem c09_array_from_region_list (regions : List (List Nat)) (n : Nat)
    (h : regions.flatten.Perm (List.range n)) :
    ∃ labels, arrayFromRegionList regions = .ok labels ∧ labels.length = n ∧
      ∀ a r, labels[a]? = some r ↔ ∃ hr : r < regions.length, a ∈ regions[r] := by
  have hlen : (regions.map List.length).sum = n := by
    have := h.length_eq
    simpa [List.length_flatten] using this
  have hnd : regions.flatten.Nodup := h.nodup_iff.2 List.nodup_range
  have hmem : ∀ a, a ∈ regions.flatten ↔ a < n := fun a => by rw [h.mem_iff, List.mem_range]
  obtain ⟨labels, h1, h2, h3, h4⟩ := fillRegions_spec regions 0 (List.replicate n 0) (by
    intro reg hreg a ha
    rw [List.length_replicate, ← hmem]
    exact List.mem_flatten.2 ⟨reg, hreg, ha⟩) hnd
  rw [List.length_replicate] at h2
  refine ⟨labels, by unfold arrayFromRegionList; rw [hlen]; exact h1, h2, ?_⟩
  intro a r
  constructor
  · intro har
    have ha : a < n := by
      rw [← h2]; exact (List.getElem?_eq_some_iff.1 har).1
    obtain ⟨reg, hreg, har'⟩ := List.mem_flatten.1 ((hmem a).2 ha)
    obtain ⟨k, hk, rfl⟩ := List.mem_iff_getElem.1 hreg
    have := h4 k hk a har'
    rw [har] at this
    simp only [Nat.zero_add, Option.some.injEq] at this
    subst this
    exact ⟨hk, har'⟩
  · rintro ⟨hr, ha⟩
    simpa using h4 r hr a ha

example : [[0, 1, 2, 5], [3, 4]].flatten.Perm (List.range 6) := by decide +kernel

/-! ### C10 -/

/-- C10: `find_sublist_containing(el, lst, index=True)` is the smallest index of a sublist
containing `el`. -/
theorem c10_index {α : Type} [DecidableEq α] (el : α) (lst : List (List α)) (k : Nat) :
    findSublistIdx el lst 0 = .ok k ↔
      ∃ h : k < lst.length, el ∈ lst[k] ∧ ∀ j (hj : j < k), el ∉ lst[j] := by
  rcases findSublistIdx_spec el lst 0 with ⟨m, hm, h1, h2, h3, _⟩ | ⟨h1, h2, _⟩
  · rw [h3, Nat.zero_add]
    constructor
    · intro h; cases h; exact ⟨hm, h1, h2⟩
    · rintro ⟨hk, hk1, hk2⟩
      congr 1
      rcases lt_trichotomy m k with h | h | h
      · exact absurd h1 (hk2 m h)
      · exact h
      · exact absurd hk1 (h2 k h)
  · rw [h2]
    constructor
    · intro h; cases h
    · rintro ⟨hk, hk1, _⟩; exact absurd hk1 (h1 _ (List.getElem_mem _))

/-- C10: with `index=False` the same sublist is returned, and both variants raise `LookupError`
exactly when no sublist contains `el`. -/
theorem c10_sublist {α : Type} [DecidableEq α] (el : α) (lst : List (List α)) :
    (∀ k (h : k < lst.length), findSublistIdx el lst 0 = .ok k →
      findSublist el lst = .ok lst[k]) ∧
    (findSublist el lst = .raise .lookupError ↔ ∀ s ∈ lst, el ∉ s) ∧
    (findSublistIdx el lst 0 = .raise .lookupError ↔ ∀ s ∈ lst, el ∉ s) := by
  rcases findSublistIdx_spec el lst 0 with ⟨m, hm, h1, _, h3, h4⟩ | ⟨h1, h2, h3⟩
  · rw [h3, h4, Nat.zero_add]
    refine ⟨?_, ?_, ?_⟩
    · intro k _ hk; cases hk; rfl
    · simp; exact ⟨_, List.getElem_mem _, h1⟩
    · simp; exact ⟨_, List.getElem_mem _, h1⟩
  · rw [h2, h3]; simp; exact h1

example : findSublistIdx 2 [[0, 1], [2], [2]] 0 = .ok 1 := by decide

/-! ### C11 -/

/-- C11: `count` is the number of positions holding the element. -/
theorem c11_count {n : Nat} {α : Type} [DecidableEq α] (arr : Fin n → α) (el : α) :
    count (arrayList arr) el = (Finset.univ.filter fun i => arr i = el).card := by
  rw [count_eq, count_arrayList, ← List.toFinset_card_of_nodup (whereEq_nodup arr el)]
  congr 1
  ext i; simp [mem_whereEq]

example : count [0, 0, 0, 1, 1] (2 : Int) = 0 ∧ count [0, 0, 0, 1, 1] (0 : Int) = 3 := by decide

/-! ### C16 -/

/-- C16: `random_element_from` returns an element, raises exactly on the empty list, and can
return every element. -/
theorem c16_random_element_from {α : Type} (lst : List α) :
    (∀ r x r', randomElementFrom lst r = .ok (x, r') → x ∈ lst) ∧
    (∀ r, (∃ p, randomElementFrom lst r = .ok p) ↔ lst ≠ []) ∧
    (∀ r, lst = [] → ∃ m, randomElementFrom lst r = .raise (.valueError m)) ∧
    (∀ x ∈ lst, ∃ r r', randomElementFrom lst r = .ok (x, r')) := by
  refine ⟨fun r x r' h => (randomElementFrom_ok h).1, ?_, ?_, ?_⟩
  · intro r
    constructor
    · rintro ⟨p, hp⟩ rfl
      have := (randomElementFrom_ok hp).1
      cases this
    · intro h
      obtain ⟨x, _, hx⟩ := randomElementFrom_ne_nil h r
      exact ⟨_, hx⟩
  · rintro r rfl; exact ⟨_, rfl⟩
  · intro x hx
    obtain ⟨i, hi, rfl⟩ := List.mem_iff_getElem.1 hx
    refine ⟨fun _ => i, (fun _ => i), ?_⟩
    unfold randomElementFrom
    rw [randrange_pos (by omega)]
    simp only [Res.bind_ok, Nat.mod_eq_of_lt hi, List.getElem?_eq_getElem hi]
    rfl

/-- C16: `pop_randomly_from` returns one element together with the list of the others, raises
exactly on the empty list, and can return every element. -/
theorem c16_pop_randomly_from {α : Type} (lst : List α) :
    (∀ r x rest r', popRandomlyFrom lst r = .ok (x, rest, r') →
      lst.Perm (x :: rest) ∧ rest.Sublist lst) ∧
    (∀ r, (∃ p, popRandomlyFrom lst r = .ok p) ↔ lst ≠ []) ∧
    (∀ r, lst = [] → ∃ m, popRandomlyFrom lst r = .raise (.valueError m)) ∧
    (∀ x ∈ lst, ∃ r rest r', popRandomlyFrom lst r = .ok (x, rest, r')) := by
  refine ⟨?_, ?_, ?_, ?_⟩
  · intro r x rest r' h
    obtain ⟨pos, hpos, h1, h2, _⟩ := popRandomlyFrom_ok h
    dsimp only at h1 h2
    subst h1 h2
    exact ⟨(List.getElem_cons_eraseIdx_perm hpos).symm, List.eraseIdx_sublist _ _⟩
  · intro r
    constructor
    · rintro ⟨p, hp⟩ rfl
      obtain ⟨pos, hpos, _⟩ := popRandomlyFrom_ok hp
      simp at hpos
    · intro h
      obtain ⟨_, _, hx⟩ := popRandomlyFrom_ne_nil h r
      exact ⟨_, hx⟩
  · rintro r rfl; exact ⟨_, rfl⟩
  · intro x hx
    obtain ⟨i, hi, rfl⟩ := List.mem_iff_getElem.1 hx
    refine ⟨fun _ => i, lst.eraseIdx i, (fun _ => i), ?_⟩
    unfold popRandomlyFrom
    rw [randrange_pos (by omega)]
    simp only [Res.bind_ok, Nat.mod_eq_of_lt hi, List.getElem?_eq_getElem hi]
    rfl

end Region.Props
