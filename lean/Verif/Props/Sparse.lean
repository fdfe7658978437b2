import Verif.Lemmas.Sparse
import Verif.Props.Util
/-
Property theorems C122: the weights stored in the adjacency matrix.
-/
namespace Region.Props

open Region Spec

/-- Which areas border each other according to a matrix of weights: the value is not zero. -/
def bordering {n : Nat} (A : Csr n) : Adj n := fun i j => decide (A.value i j ≠ 0)

theorem bordering_eq {n : Nat} (A : Csr n) : bordering A = A.nonzero := by
  funext i j
  rw [Bool.eq_iff_iff, Csr.nonzero_iff_value]
  simp [bordering]

/-- C122: `neighbors` lists, in increasing order, exactly the areas with a value different from zero, for
every matrix. -/
theorem c122_neighbors {n : Nat} (A : Csr n) (a b : Fin n) :
    (b ∈ A.neighbors a ↔ A.value a b ≠ 0) ∧ (A.neighbors a).Pairwise (· < ·) := by
  rw [Csr.neighbors_eq]
  exact ⟨(c02_neighbors _ a b).1.trans (Csr.nonzero_iff_value A a b), (c02_neighbors _ a b).2⟩

/-- C122 (only for matrices without stored zeros): `is_connected`, `assert_feasible` and
`separate_components` only depend on which areas border each other, whatever the values are. -/
theorem c122_checks_partial {n : Nat} (A : Csr n) (hz : ∀ i, ∀ e ∈ A.rows i, e.2 ≠ 0) (keep : Bool) :
    (A.isConnected = true ↔ Connected (bordering A)) ∧
    (∀ nodes : List (Fin n), nodes.Nodup →
      ((A.sub keep nodes).isConnected = true ↔ Contiguous (bordering A) {v | v ∈ nodes})) ∧
    (∀ solution p, A.assertFeasible keep solution p = .ok () ↔
      AllContiguous (bordering A) solution ∧ ∀ q, p = some q → (numRegions solution : Int) = q) ∧
    ∀ labels, ∃ island : Fin n → Nat,
      (∀ a b, island a = island b ↔ SameIsland (bordering A) a b) ∧
      (∀ v, island v < (A.separateComponents labels).length) ∧
      (∀ c, c < (A.separateComponents labels).length → ∃ v, island v = c) ∧
      ∀ c (h : c < (A.separateComponents labels).length) v,
        (A.separateComponents labels)[c] v = if island v = c then labels v else -1 := by
  have hc : A.Clean := hz
  rw [bordering_eq]
  refine ⟨?_, ?_, ?_, ?_⟩
  · unfold Csr.isConnected
    rw [hc.stored]; exact c01_is_connected _
  · intro nodes hn
    unfold Csr.isConnected
    rw [(hc.sub keep nodes).stored, Csr.nonzero_sub]
    exact isConnected_subAdj A.nonzero hn
  · intro solution p
    rw [Csr.assertFeasible_eq (Or.inr hc)]
    exact c04_assert_feasible_ok solution A.nonzero p
  · intro labels
    unfold Csr.separateComponents
    rw [hc.stored]
    exact c03_separate_components A.nonzero labels

/-- C122 (only for matrices without stored zeros): two matrices that agree in which areas border each other
are treated alike. -/
theorem c122_alike_partial {n : Nat} (A B : Csr n) (hA : ∀ i, ∀ e ∈ A.rows i, e.2 ≠ 0)
    (hB : ∀ i, ∀ e ∈ B.rows i, e.2 ≠ 0) (h : ∀ i j, A.value i j ≠ 0 ↔ B.value i j ≠ 0) (keep : Bool) :
    A.isConnected = B.isConnected ∧ A.neighbors = B.neighbors ∧
    (∀ nodes, (A.sub keep nodes).isConnected = (B.sub keep nodes).isConnected ∧
      (A.sub keep nodes).neighbors = (B.sub keep nodes).neighbors) ∧
    A.assertFeasible keep = B.assertFeasible keep ∧ A.separateComponents = B.separateComponents := by
  have hcA : A.Clean := hA
  have hcB : B.Clean := hB
  have he : A.nonzero = B.nonzero := by
    rw [← bordering_eq, ← bordering_eq]
    funext i j
    simp only [bordering, decide_eq_decide]
    exact h i j
  refine ⟨?_, ?_, fun nodes => ⟨?_, ?_⟩, ?_, ?_⟩
  · unfold Csr.isConnected; rw [hcA.stored, hcB.stored, he]
  · funext a; rw [Csr.neighbors_eq, Csr.neighbors_eq, he]
  · unfold Csr.isConnected
    rw [(hcA.sub keep nodes).stored, (hcB.sub keep nodes).stored, Csr.nonzero_sub, Csr.nonzero_sub, he]
  · funext a; rw [Csr.neighbors_eq, Csr.neighbors_eq, Csr.nonzero_sub, Csr.nonzero_sub, he]
  · funext s p; rw [Csr.assertFeasible_eq (Or.inr hcA), Csr.assertFeasible_eq (Or.inr hcB), he]
  · funext l; unfold Csr.separateComponents; rw [hcA.stored, hcB.stored, he]

/-- C122 (only for matrices without stored zeros): the weights influence which spanning tree is cut, but
whatever they are `generate_initial_sol` yields a clustering into exactly `p` contiguous regions, one array
per island. -/
theorem c122_start_partial {n : Nat} (A : Csr n) (hz : ∀ i, ∀ e ∈ A.rows i, e.2 ≠ 0) (o : Csr.Order)
    (keep : Bool) (p : Int) (r : Rng) (hn : 0 < n) (hp : p ≤ n) (hp1 : p ≠ 1) (island : Fin n → Nat)
    (hi : ∀ a b, island a = island b ↔ SameIsland (bordering A) a b)
    (hc : (numRegions island : Int) ≤ p) :
    ∃ gen r', A.generateInitialSol o keep p r = .ok (gen, r') ∧
      (∀ s ∈ gen, ∀ r, ∃ y r', s r = .ok (.array y, r')) ∧
      ∀ ys, List.Forall₂ (fun s y => ∃ r r', s r = .ok (.array y, r')) gen ys →
        ∃ lab : Labels n, AllContiguous (bordering A) lab ∧ (numRegions lab : Int) = p ∧
          (∀ v, 0 ≤ lab v ∧ lab v < p) ∧ ys = A.separateComponents lab := by
  have hcl : A.Clean := hz
  rw [bordering_eq] at hi ⊢
  rw [c07_nComponents A.nonzero island hi] at hc
  obtain ⟨gen, r', h1, h2, h3⟩ := Csr.generateInitialSol_spec o keep hcl p r hn hp hp1 hc
  refine ⟨gen, r', h1, h2, ?_⟩
  intro ys hys
  obtain ⟨lab, e1, e2, e3, e4⟩ := h3 ys hys
  refine ⟨lab, e2, ?_, e3, by unfold Csr.separateComponents; rw [hcl.stored]; exact e1⟩
  have : Finset.univ.image lab = Finset.Ico (0 : Int) p := by
    ext x
    simp only [Finset.mem_image, Finset.mem_univ, true_and, Finset.mem_Ico]
    constructor
    · rintro ⟨v, rfl⟩; exact e3 v
    · rintro ⟨h1, h2⟩; exact e4 x h1 h2
  unfold numRegions
  rw [this, Int.card_Ico]
  omega

/-- Four areas in a row with the weights `a`, `b`, `c`, all stored. -/
def weighted4 (a b c : ℚ) : Csr 4 where
  rows := ![[(1, a)], [(0, a), (2, b)], [(1, b), (3, c)], [(2, c)]]
  sorted := by
    have h : ∀ i : Fin 4, ((![[1], [0, 2], [1, 3], [2]] : Fin 4 → List (Fin 4)) i).Pairwise (· < ·) := by
      decide
    intro i
    match i with
    | 0 => exact h 0
    | 1 => exact h 1
    | 2 => exact h 2
    | 3 => exact h 3

example : ∀ i, ∀ e ∈ (weighted4 2 (-1) (1 / 3)).rows i, e.2 ≠ 0 := by decide +kernel
example : ∀ i j, (weighted4 2 (-1) (1 / 3)).value i j ≠ 0 ↔ (weighted4 1 1 1).value i j ≠ 0 := by
  decide +kernel
example : bordering (weighted4 2 (-1) (1 / 3)) = path4 := by decide +kernel

/-- The order of the values, equal ones row by row. -/
def Csr.Order.stable : Csr.Order where
  order := fun A => (edgesOf A.stored).insertionSort fun e f => A.value e.1 e.2 ≤ A.value f.1 f.2
  perm := fun A => List.perm_insertionSort _ _
  sorted := fun A => by
    have : Std.Total fun e f : Fin _ × Fin _ => A.value e.1 e.2 ≤ A.value f.1 f.2 :=
      ⟨fun _ _ => le_total _ _⟩
    have : IsTrans _ fun e f : Fin _ × Fin _ => A.value e.1 e.2 ≤ A.value f.1 f.2 :=
      ⟨fun _ _ _ => le_trans⟩
    exact List.pairwise_insertionSort _ _

/-- C122, not in general: a stored zero (the areas 1 and 2 do not border each other) counts as a border in
`is_connected` and in the connected components, but not in `neighbors`.  If indexing keeps stored zeros,
`assert_feasible` accepts a region that is not contiguous.  There are two islands but
`separate_components` only yields one array. -/
theorem c122_stored_zero :
    (weighted4 1 0 1).neighbors 1 = [0] ∧ (weighted4 1 0 1).isConnected = true ∧
    ¬ Connected (bordering (weighted4 1 0 1)) ∧
    (weighted4 1 0 1).assertFeasible true ![5, 5, 5, 5] (some 1) = .ok () ∧
    ¬ AllContiguous (bordering (weighted4 1 0 1)) (![5, 5, 5, 5] : Labels 4) ∧
    ((weighted4 1 0 1).separateComponents ![5, 5, 6, 6]).length = 1 ∧
    nComponents (bordering (weighted4 1 0 1)) = 2 := by
  refine ⟨by decide +kernel, by decide +kernel, ?_, by decide +kernel, ?_, by decide +kernel,
    by decide +kernel⟩
  · rw [← c01_is_connected]; decide +kernel
  · intro h
    have := (c04_assert_feasible_ok ![5, 5, 5, 5] (bordering (weighted4 1 0 1)) (some 1)).2
      ⟨h, by intro p hp; cases hp; decide⟩
    revert this
    decide +kernel

/-- C122, not in general: with a stored zero the spanning tree loses a link before anything is cut, and
`_randomly_divide_connected_graph` returns three regions when two are asked for, whatever is drawn; it is
called because `connected_components` says that there is one component. -/
theorem c122_too_many (rng : Rng) :
    nComponents (weighted4 1 0 1).stored = 1 ∧
    ∃ labs r', (weighted4 1 0 1).randomlyDivide Csr.Order.stable 2 rng = .ok (labs, r') ∧
      numRegions labs = 3 := by
  refine ⟨by decide +kernel, ?_⟩
  have hm : (weighted4 1 0 1).mst Csr.Order.stable = [(0, 1), (2, 3)] := by decide +kernel
  unfold Csr.randomlyDivide
  rw [if_neg (by decide), if_neg (by decide), hm]
  obtain ⟨b, r1, hb, hbm⟩ := tryLinks_spec (n := 4) (by decide) (mst := [(0, 1), (2, 3)]) (by simp) 5
    none rng (by simp) (Or.inl (by decide))
  have hcut : cutLinks 1 ([(0, 1), (2, 3)] : List (Fin 4 × Fin 4)) rng =
      .ok (([(0, 1), (2, 3)] : List (Fin 4 × Fin 4)).erase b.1, r1) := by
    unfold cutLinks
    rw [hb]
    rfl
  refine ⟨compLabels (adjOf (([(0, 1), (2, 3)] : List (Fin 4 × Fin 4)).erase b.1)), r1, ?_, ?_⟩
  · show (cutLinks 1 _ rng >>= fun x => _) = _
    rw [hcut]
    rfl
  · clear hb hcut
    rcases b with ⟨l, w⟩
    simp only [List.mem_cons, List.not_mem_nil, or_false] at hbm
    rcases hbm with rfl | rfl <;> dsimp only <;> decide +kernel

/-- C122, not in general: only the areas 2 and 3 border each other, so there are three islands, and two
regions are asked for.  Because of the stored zeros `generate_initial_sol` neither refuses this nor yields
one array per island: it yields a single array, with four regions. -/
theorem c122_generate :
    nComponents (bordering (weighted4 0 0 1)) = 3 ∧
    (match (weighted4 0 0 1).generateInitialSol Csr.Order.stable true 2 fun _ => 0 with
      | .ok (gen, r) => match gen.toList r with
        | .ok ([.array lab], _) => decide (numRegions lab = 4)
        | _ => false
      | _ => false) = true ∧
    ∃ msg, Region.generateInitialSol MstOrder.rowMajor (bordering (weighted4 0 0 1)) 2 (fun _ => 0) =
      .raise (.valueError msg) := by
  refine ⟨by decide +kernel, by decide +kernel,
    "The number of regions must not be less than the number of connected components", ?_⟩
  unfold Region.generateInitialSol
  rw [if_neg (by decide), if_neg (by decide), if_neg (by decide), if_pos (by decide +kernel)]

end Region.Props
