import Verif.Lemmas.ExactOpt
import Verif.Props.Objective
import Verif.Props.AzpTabu
/-
Property theorems C48-C55 and C71: the exact methods for the p-regions problem.
-/
namespace Region.Props

open Region Spec Finset

section
variable {n : Nat} {adj : Adj n} {d : Fin n → Fin n → ℚ} {p : Nat}

/-- The number of areas with the label of an area. -/
theorem sizeAt_eq {κ : Type} [DecidableEq κ] (L : Fin n → κ) (v : Fin n) :
    sizeAt L v = (univ.filter fun i => L i = L v).card := rfl

/-- The labels `0 … p-1` as values of variables. -/
theorem reads_self {V : Type} (P : Lp V) (a : V → ℤ) : P.Reads a fun v => some (a v : ℚ) :=
  fun _ _ => rfl

/-! ### C48: the flow model is sound -/

/-- C48: the statements of `_flow` build a problem exactly for undirected maps … -/
theorem c48_flow_builds (hp : 0 < p) : (∃ P, flowLp adj d p = .ok P) ↔ Spec.Symmetric adj :=
  flowLp_ok_iff hp

/-- … and raise `KeyError` for all others (a missing flow variable). -/
theorem c48_flow_key_error (hp : 0 < p) (hs : ¬ Spec.Symmetric adj) :
    flowLp adj d p = .raise .keyError := by
  rcases Lp.build_raise (flowDecls adj p)
    (Lin.sum ((upperTriangle n).map fun e => d e.1 e.2 * Lin.var (FlowVar.t e.1 e.2)))
    (flow21 p ++ flow22 p ++ flow23 p ++ flow24 adj p ++ flow25 adj p ++ flow26 adj p ++ flow27 p)
    with h | h
  · exact absurd ((flowLp_ok_iff hp).1 h) hs
  · exact h

theorem flow_reads {P : Lp (FlowVar n)} {a : FlowVar n → ℤ} {vals : FlowVar n → Option ℚ}
    (hP : flowLp adj d p = .ok P) (hv : P.Reads a vals) :
    ∀ i k, k < p → vals (.y i k) = some (a (.y i k) : ℚ) := by
  intro i k hk
  rw [flowLp_eq hP] at hv
  refine hv ⟨.y i k, 0, some 1⟩ ?_
  simp only [flowDecls, List.mem_append, List.mem_flatMap, List.mem_map, List.mem_finRange,
    List.mem_range, true_and]
  exact .inl (.inr ⟨i, k, hk, rfl⟩)

/-- C48: whatever the values a solver finds for the variables of the flow model: if they satisfy the
constraints, the labels read off are `n_regions` contiguous regions labelled `0 … n_regions - 1`. -/
theorem c48_flow_sound (hp : 0 < p) {P : Lp (FlowVar n)} (hP : flowLp adj d p = .ok P)
    {a : FlowVar n → ℤ} (ha : P.Feasible a) {vals : FlowVar n → Option ℚ} (hv : P.Reads a vals) :
    Feasible adj (flowDecode p vals) p ∧
      ∀ i, 0 ≤ flowDecode p vals i ∧ flowDecode p vals i < p := by
  have hsol := (flow_feasible_iff hP).1 ha
  have hs := (flowLp_ok_iff hp).1 ⟨P, hP⟩
  obtain ⟨hL, hr⟩ := hsol.flowDecode (flow_reads hP hv)
  obtain ⟨h1, h2⟩ := hsol.allContiguous hs hL hr
  refine ⟨⟨h1, numRegions_of_image h2⟩, fun i => ?_⟩
  obtain ⟨k, hk, h⟩ := hr i
  omega

/-- A region of a solution of the flow model has at most `n_areas - n_regions` areas. -/
theorem flow_size (hp : 0 < p) {P : Lp (FlowVar n)} (hP : flowLp adj d p = .ok P)
    {a : FlowVar n → ℤ} (ha : P.Feasible a) {vals : FlowVar n → Option ℚ} (hv : P.Reads a vals)
    (c : Int) : ((univ.filter fun i => flowDecode p vals i = c).card : Int) ≤ n - p := by
  have hsol := (flow_feasible_iff hP).1 ha
  have hs := (flowLp_ok_iff hp).1 ⟨P, hP⟩
  obtain ⟨hL, hr⟩ := hsol.flowDecode (flow_reads hP hv)
  by_cases hc : ∃ k < p, c = (k : Int)
  · obtain ⟨k, hk, rfl⟩ := hc
    have := hsol.size hs hk
    refine le_trans (le_of_eq ?_) this
    congr 2
    ext v
    simp only [mem_filter, mem_univ, true_and]
    exact hL v k hk
  · have h0 : (univ.filter fun i => flowDecode p vals i = c) = ∅ := by
      refine filter_eq_empty_iff.2 fun i _ hi => ?_
      obtain ⟨k, hk, h⟩ := hr i
      exact hc ⟨k, hk, by rw [← hi, h]⟩
    rw [h0]
    have := hsol.size hs hp
    have h3 : (0 : ℤ) ≤ ((univ.filter fun v => a (.y v 0) = 1).card : ℤ) := by positivity
    simpa using le_trans h3 this

/-! ### C49: which clusterings the flow model represents -/

/-- C49 (part): a clustering into `n_regions` contiguous regions is read off a solution of the flow
model if and only if none of its regions has more than `n_areas - n_regions` areas.  Missing: the
clusterings with a region of `n_areas - n_regions + 1` areas, see `c49_not_representable`. -/
theorem c49_flow_representable_partial (hp : 0 < p) {P : Lp (FlowVar n)}
    (hP : flowLp adj d p = .ok P) {L : Labels n} (hL : Feasible adj L p)
    (hr : ∀ i, 0 ≤ L i ∧ L i < p) :
    (∃ a, P.Feasible a ∧ ∀ vals, P.Reads a vals → flowDecode p vals = L) ↔
      ∀ c, ((univ.filter fun i => L i = c).card : Int) ≤ n - p := by
  have hs := (flowLp_ok_iff hp).1 ⟨P, hP⟩
  constructor
  · rintro ⟨a, ha, h⟩ c
    have := flow_size hp hP ha (reads_self P a) c
    rwa [h _ (reads_self P a)] at this
  · intro hsize
    obtain ⟨N, hN, hlt, hsurj⟩ := exists_nat_labels hr hL.2
    have hiff : ∀ i j, N i = N j ↔ L i = L j := fun i j => by rw [hN, hN]; omega
    obtain ⟨a, ha, hy, -⟩ := flow_representable (p := p) hs (allContiguous_congr hiff hL.1) hlt hsurj
      (fun v => by
        refine le_trans (le_of_eq ?_) (hsize (L v))
        rw [sizeAt_eq]
        simp only [hiff])
    refine ⟨a, (flow_feasible_iff hP).2 ha, fun vals hv => ?_⟩
    obtain ⟨h1, h2⟩ := ha.flowDecode (flow_reads hP hv)
    funext i
    rw [hN i]
    refine (h1 i (N i) (hlt i)).2 ?_
    rw [hy, if_pos rfl]

/-- With one region the flow model has no solution. -/
theorem c49_single_region_infeasible {n : Nat} {adj : Adj (n + 1)} {d : Fin (n + 1) → Fin (n + 1) → ℚ}
    {P : Lp (FlowVar (n + 1))} (hP : flowLp adj d 1 = .ok P) (a : FlowVar (n + 1) → ℤ) :
    ¬ P.Feasible a := by
  intro ha
  have h1 := c48_flow_sound (by omega) hP ha (reads_self P a)
  have h2 := flow_size (by omega) hP ha (reads_self P a) 0
  have : (univ.filter fun i => flowDecode 1 (fun v => some (a v : ℚ)) i = 0) = univ := by
    refine filter_true_of_mem fun i _ => ?_
    have := h1.2 i
    omega
  rw [this, card_univ, Fintype.card_fin] at h2
  push_cast at h2
  omega

/-- With as many regions as areas the flow model has no solution. -/
theorem c49_singletons_infeasible (hn : 0 < n) {P : Lp (FlowVar n)} (hP : flowLp adj d n = .ok P)
    (a : FlowVar n → ℤ) : ¬ P.Feasible a := by
  intro ha
  have h2 := flow_size hn hP ha (reads_self P a) (flowDecode n (fun v => some (a v : ℚ)) ⟨0, hn⟩)
  have : 0 < (univ.filter fun i => flowDecode n (fun v => some (a v : ℚ)) i =
      flowDecode n (fun v => some (a v : ℚ)) ⟨0, hn⟩).card :=
    card_pos.2 ⟨⟨0, hn⟩, by simp⟩
  omega

/-- If no region needs all but `n_regions - 1` areas there is a solution, and an optimal one. -/
theorem c49_flow_solvable (hp : 0 < p) {P : Lp (FlowVar n)} (hP : flowLp adj d p = .ok P)
    {L : Labels n} (hL : Feasible adj L p)
    (hsize : ∀ c, ((univ.filter fun i => L i = c).card : Int) ≤ n - p) : ∃ a, P.Optimal a := by
  have hs := (flowLp_ok_iff hp).1 ⟨P, hP⟩
  obtain ⟨N, hlt, hsurj, hiff⟩ := exists_numbering L hL.2
  obtain ⟨a, ha, -⟩ := flow_representable (p := p) hs (allContiguous_congr hiff hL.1) hlt hsurj
    (fun v => by
      refine le_trans (le_of_eq ?_) (hsize (L v))
      rw [sizeAt_eq]
      simp only [hiff])
  refine exists_optimal FlowVar.t d ?_ (fun b hb i j hij => ((flow_feasible_iff hP).1 hb).t01 i j hij)
    ⟨a, (flow_feasible_iff hP).2 ha⟩
  rw [flowLp_eq hP]

/-! ### C50, C51: the order model -/

/-- C50: the statements of `_order` build a problem if there are fewer regions than areas … -/
theorem c50_order_builds (hp : 0 < p) (hn : 0 < n) : (∃ P, orderLp adj d p = .ok P) ↔ p < n :=
  orderLp_ok_iff hp hn

/-- … and raise `KeyError` if there are as many (there is no `x[i, k, 0]`). -/
theorem c51_order_key_error (hn : 0 < n) : orderLp adj d n = .raise .keyError := by
  rcases Lp.build_raise (orderDecls n)
    (Lin.sum ((upperTriangle n).map fun e => d e.1 e.2 * Lin.var (OrderVar.t e.1 e.2)))
    (order14 n ++ order15 n ++ order16 adj n ++ order17 n) with h | h
  · exact absurd ((orderLp_ok_iff hn hn).1 h) (by omega)
  · exact h

theorem order_reads {P : Lp (OrderVar n)} {a : OrderVar n → ℤ} {vals : OrderVar n → Option ℚ}
    (hP : orderLp adj d p = .ok P) (hv : P.Reads a vals) :
    ∀ i k o, k < p → o < n - p → vals (.x i k o) = some (a (.x i k o) : ℚ) := by
  intro i k o hk ho
  rw [orderLp_eq hP] at hv
  refine hv ⟨.x i k o, 0, some 1⟩ ?_
  simp only [orderDecls, List.mem_append, List.mem_flatMap, List.mem_map, List.mem_finRange,
    List.mem_range, true_and]
  exact .inr ⟨i, k, hk, o, ho, rfl⟩

/-- C50: if the values found for the variables of the order model satisfy the constraints, the labels
read off are `n_regions` contiguous regions labelled `0 … n_regions - 1`. -/
theorem c50_order_sound (hp : 0 < p) {P : Lp (OrderVar n)} (hP : orderLp adj d p = .ok P)
    {a : OrderVar n → ℤ} (ha : P.Feasible a) {vals : OrderVar n → Option ℚ} (hv : P.Reads a vals) :
    Feasible adj (orderDecode p vals) p ∧
      ∀ i, 0 ≤ orderDecode p vals i ∧ orderDecode p vals i < p := by
  have hsol := (order_feasible_iff hP).1 ha
  have hL := hsol.decode (order_reads hP hv)
  rcases Nat.eq_zero_or_pos n with hn | hn
  · subst hn
    have := hsol.c14 0 hp
    simp at this
  have hpn := (orderLp_ok_iff hp hn).1 ⟨P, hP⟩
  refine ⟨⟨hsol.orderX.allContiguous hL, numRegions_of_image (hsol.image hpn hL)⟩, fun i => ?_⟩
  obtain ⟨k, o, hk, -, h, -⟩ := hL i
  omega

/-- C51 (part): with at least two more areas than regions every clustering into `n_regions` contiguous
regions is read off a solution of the order model.  Missing: fewer areas, see `c51_order_infeasible` and
`c51_order_key_error`. -/
theorem c51_order_representable_partial (hs : Spec.Symmetric adj) (hp : 0 < p) (h2 : p + 2 ≤ n)
    {P : Lp (OrderVar n)} (hP : orderLp adj d p = .ok P) {L : Labels n} (hL : Feasible adj L p)
    (hr : ∀ i, 0 ≤ L i ∧ L i < p) :
    ∃ a, P.Feasible a ∧ ∀ vals, P.Reads a vals → orderDecode p vals = L := by
  obtain ⟨N, hN, hlt, hsurj⟩ := exists_nat_labels hr hL.2
  have hiff : ∀ i j, N i = N j ↔ L i = L j := fun i j => by rw [hN, hN]; omega
  obtain ⟨a, ha, hx, -⟩ := order_representable (p := p) hs (allContiguous_congr hiff hL.1) hlt hsurj hp h2
  refine ⟨a, (order_feasible_iff hP).2 ha, fun vals hv => ?_⟩
  funext i
  obtain ⟨k, o, hk, ho, h1, h3, -⟩ := ha.decode (order_reads hP hv) i
  rw [h1, hN i, hx i k o hk ho h3]

/-- With one more area than regions the order model has no solution. -/
theorem c51_order_infeasible {p : Nat} {adj : Adj (p + 1)} {d : Fin (p + 1) → Fin (p + 1) → ℚ}
    {P : Lp (OrderVar (p + 1))} (hP : orderLp adj d p = .ok P) (a : OrderVar (p + 1) → ℤ) :
    ¬ P.Feasible a := by
  intro ha
  have h := (order_feasible_iff hP).1 ha
  have h15 : ∀ i, ∑ k ∈ range p, a (.x i k 0) = 1 := by
    intro i
    have := h.c15 i
    rw [show p + 1 - p = 1 by omega] at this
    simpa using this
  have h1 : ∑ i, ∑ k ∈ range p, a (.x i k 0) = ((p + 1 : Nat) : ℤ) := by
    rw [sum_congr rfl fun i _ => h15 i]; simp
  rw [sum_comm, sum_congr rfl fun k hk => h.c14 k (mem_range.1 hk)] at h1
  simp at h1

/-- If there is a clustering to be found the order model has an optimal solution. -/
theorem c51_order_solvable (hs : Spec.Symmetric adj) (hp : 0 < p) (h2 : p + 2 ≤ n)
    {P : Lp (OrderVar n)} (hP : orderLp adj d p = .ok P) {L : Labels n} (hL : Feasible adj L p) :
    ∃ a, P.Optimal a := by
  obtain ⟨N, hlt, hsurj, hiff⟩ := exists_numbering L hL.2
  obtain ⟨a, ha, -⟩ := order_representable (p := p) hs (allContiguous_congr hiff hL.1) hlt hsurj hp h2
  refine exists_optimal OrderVar.t d ?_ (fun b hb i j hij => ((order_feasible_iff hP).1 hb).t01 i j hij)
    ⟨a, (order_feasible_iff hP).2 ha⟩
  rw [orderLp_eq hP]

/-! ### C52, C53: the tree model -/

/-- The statements of `_tree` always build a problem. -/
theorem c52_tree_builds : ∃ P, treeLp adj d p = .ok P := ⟨_, treeLp_ok⟩

theorem tree_reads {P : Lp (TreeVar n)} {a : TreeVar n → ℤ} {vals : TreeVar n → Option ℚ}
    (hP : treeLp adj d p = .ok P) (hv : P.Reads a vals) :
    ∀ i j, vals (.t i j) = some (a (.t i j) : ℚ) := by
  intro i j
  rw [treeLp_ok, Res.ok.injEq] at hP
  subst hP
  refine hv ⟨.t i j, 0, some 1⟩ ?_
  simp only [treeDecls, List.mem_append, List.mem_map]
  exact .inl (.inl ⟨(i, j), mem_allPairs _, rfl⟩)

/-- C52: values that satisfy the constraints of the tree model put the areas into at most `n_regions`
classes.  If there are `n_regions` of them, the labels read off are the `n_regions` classes, all
contiguous; otherwise `KeyError` is raised. -/
theorem c52_tree_sound (h2 : p + 2 ≤ n ∨ (Spec.Symmetric adj ∧ (∀ i, adj i i = false) ∧ 0 < n))
    {P : Lp (TreeVar n)} (hP : treeLp adj d p = .ok P) {a : TreeVar n → ℤ} (ha : P.Feasible a)
    {vals : TreeVar n → Option ℚ} (hv : P.Reads a vals) (r : Rng) :
    ∃ f : Fin n → Fin n, (∀ i j, f i = f j ↔ i = j ∨ a (.t i j) = 1) ∧
      ((numRegions f = p ∧ ∃ l, treeDecode p vals r = .ok l ∧ l.length = n ∧
          (∀ i j : Fin n, labelsOf l i = labelsOf l j ↔ f i = f j) ∧
          (∀ i : Fin n, labelsOf l i < p) ∧ Feasible adj (labelsOf (n := n) l) p) ∨
        (numRegions f < p ∧ treeDecode p vals r = .raise .keyError)) := by
  have hsol := (tree_feasible_iff hP).1 ha
  have h2' : (2 : ℤ) ≤ (n : ℤ) - p := by
    rcases h2 with h2 | ⟨hs, hl, hn⟩
    · omega
    · exact hsol.two_le hs hl hn
  have hf : ∀ i j, classOf a i = classOf a j ↔ i = j ∨ a (.t i j) = 1 := hsol.classOf_eq_iff
  have hf' : ∀ i j, classOf a i = classOf a j ↔ i = j ∨ vals (.t i j) = some 1 := by
    intro i j
    rw [hf, tree_reads hP hv]
    simp only [Option.some.injEq]
    constructor <;> rintro (h | h)
    · exact .inl h
    · exact .inr (by rw [h]; rfl)
    · exact .inl h
    · exact .inr (by exact_mod_cast h)
  obtain ⟨h3, h4⟩ := hsol.classes h2'
  obtain ⟨h5, h6⟩ := treeDecode_spec hf' p r
  refine ⟨classOf a, hf, ?_⟩
  rcases Nat.lt_or_ge (numRegions (classOf a)) p with hlt | hge
  · exact .inr ⟨hlt, h5 hlt⟩
  · have heq : numRegions (classOf a) = p := le_antisymm h3 hge
    obtain ⟨l, hl, hlen, hlp, hiff⟩ := h6 heq
    exact .inl ⟨heq, l, hl, hlen, hiff, hlp, allContiguous_congr hiff (h4 heq),
      (numRegions_congr hiff).trans heq⟩

/-- C53 (part): with at least two more areas than regions every clustering into `n_regions` contiguous
regions is, up to the names of the regions, read off a solution of the tree model.  Missing: fewer areas,
see `c53_tree_infeasible`. -/
theorem c53_tree_representable_partial (hs : Spec.Symmetric adj) (h2 : p + 2 ≤ n)
    {P : Lp (TreeVar n)} (hP : treeLp adj d p = .ok P) {κ : Type} [DecidableEq κ] {L : Fin n → κ}
    (hL : Feasible adj L p) :
    ∃ a, P.Feasible a ∧ ∀ vals, P.Reads a vals → ∀ r, ∃ l, treeDecode p vals r = .ok l ∧
      l.length = n ∧ ∀ i j : Fin n, labelsOf l i = labelsOf l j ↔ L i = L j := by
  obtain ⟨N, hlt, hsurj, hiff⟩ := exists_numbering L hL.2
  obtain ⟨a, ha, ht⟩ := tree_representable (p := p) hs (allContiguous_congr hiff hL.1) hlt hsurj h2
  refine ⟨a, (tree_feasible_iff hP).2 ha, fun vals hv r => ?_⟩
  obtain ⟨l, h1, h3, -, h4⟩ := (treeDecode_spec (vals := vals) (f := L) (fun i j => by
    rw [tree_reads hP hv, ht, ← hiff]
    by_cases h : N i = N j
    · simp [h]
    · simp only [h, if_false, Int.cast_zero, Option.some.injEq, false_iff, not_or]
      exact ⟨fun he => h (by rw [he]), by norm_num⟩) p r).2 hL.2
  exact ⟨l, h1, h3, h4⟩

/-- With fewer areas the tree model has no solution. -/
theorem c53_tree_infeasible (hs : Spec.Symmetric adj) (hl : ∀ i, adj i i = false) (hn : 0 < n)
    (h2 : n < p + 2) {P : Lp (TreeVar n)} (hP : treeLp adj d p = .ok P) (a : TreeVar n → ℤ) :
    ¬ P.Feasible a := by
  intro ha
  have := ((tree_feasible_iff hP).1 ha).two_le hs hl hn
  omega

/-- If there is a clustering to be found the tree model has an optimal solution. -/
theorem c53_tree_solvable (hs : Spec.Symmetric adj) (h2 : p + 2 ≤ n)
    {P : Lp (TreeVar n)} (hP : treeLp adj d p = .ok P) {κ : Type} [DecidableEq κ] {L : Fin n → κ}
    (hL : Feasible adj L p) : ∃ a, P.Optimal a := by
  obtain ⟨a, ha, -⟩ := c53_tree_representable_partial hs h2 hP hL
  refine exists_optimal TreeVar.t d ?_ (fun b hb i j _ => ((tree_feasible_iff hP).1 hb).t01 i j)
    ⟨a, ha⟩
  rw [treeLp_ok, Res.ok.injEq] at hP
  rw [← hP]

/-! ### C54: optimality -/

/-- C54 (part): the labels read off an optimal solution of the flow model minimise the sum of the
dissimilarities within regions among all clusterings into `n_regions` contiguous regions of at most
`n_areas - n_regions` areas.  Missing: the clusterings with a larger region, see
`c54_flow_not_optimal`. -/
theorem c54_flow_optimal_partial (hp : 0 < p) (hd : ∀ i j, i < j → 0 ≤ d i j)
    {P : Lp (FlowVar n)} (hP : flowLp adj d p = .ok P) {vals : FlowVar n → Option ℚ}
    (hv : P.Solved vals) {L : Labels n} (hL : Feasible adj L p)
    (hsize : ∀ c, ((univ.filter fun i => L i = c).card : Int) ≤ n - p) :
    withinPairs (flowDecode p vals) d ≤ withinPairs L d := by
  obtain ⟨a, ⟨ha, hopt⟩, hvals⟩ := hv
  have hs := (flowLp_ok_iff hp).1 ⟨P, hP⟩
  have hsol := (flow_feasible_iff hP).1 ha
  obtain ⟨N, hlt, hsurj, hiff⟩ := exists_numbering L hL.2
  obtain ⟨b, hb, -, ht⟩ := flow_representable (p := p) hs (allContiguous_congr hiff hL.1) hlt hsurj
    (fun v => by
      refine le_trans (le_of_eq ?_) (hsize (L v))
      rw [sizeAt_eq]
      simp only [hiff])
  have h1 := hopt b ((flow_feasible_iff hP).2 hb)
  rw [flowLp_eq hP, eval_objective, eval_objective] at h1
  rw [← withinPairs_congr hiff d, withinPairs_eq N]
  obtain ⟨hD, hr⟩ := hsol.flowDecode (flow_reads hP hvals)
  refine le_trans (withinPairs_le _ hd (fun i j => a (.t i j)) (fun i j hij => (hsol.t01 i j hij).1) ?_)
    (h1.trans (le_of_eq ?_))
  · intro i j hij heq
    obtain ⟨k, hk, h⟩ := hr i
    have h3 := (hD i k hk).1 h
    have h4 := (hD j k hk).1 (heq ▸ h)
    have := hsol.c27 i j k hij hk
    omega
  · refine sum_congr rfl fun e _ => ?_
    rw [ht]
    split_ifs <;> simp

/-- C54: the labels read off an optimal solution of the order model minimise the sum of the
dissimilarities within regions among all clusterings into `n_regions` contiguous regions. -/
theorem c54_order_optimal (hs : Spec.Symmetric adj) (hp : 0 < p) (h2 : p + 2 ≤ n)
    (hd : ∀ i j, i < j → 0 ≤ d i j) {P : Lp (OrderVar n)} (hP : orderLp adj d p = .ok P)
    {vals : OrderVar n → Option ℚ} (hv : P.Solved vals) {L : Labels n} (hL : Feasible adj L p) :
    withinPairs (orderDecode p vals) d ≤ withinPairs L d := by
  obtain ⟨a, ⟨ha, hopt⟩, hvals⟩ := hv
  have hsol := (order_feasible_iff hP).1 ha
  obtain ⟨N, hlt, hsurj, hiff⟩ := exists_numbering L hL.2
  obtain ⟨b, hb, -, ht⟩ := order_representable (p := p) hs (allContiguous_congr hiff hL.1) hlt hsurj hp h2
  have h1 := hopt b ((order_feasible_iff hP).2 hb)
  rw [orderLp_eq hP, eval_objective, eval_objective] at h1
  rw [← withinPairs_congr hiff d, withinPairs_eq N]
  have hD := hsol.decode (order_reads hP hvals)
  refine le_trans (withinPairs_le _ hd (fun i j => a (.t i j)) (fun i j hij => (hsol.t01 i j hij).1) ?_)
    (h1.trans (le_of_eq ?_))
  · intro i j hij heq
    exact hsol.t_ge hD hij heq
  · refine sum_congr rfl fun e _ => ?_
    rw [ht]
    split_ifs <;> simp

/-- C54: if the labels can be read off an optimal solution of the tree model, they minimise the sum of
the dissimilarities within regions among all clusterings into `n_regions` contiguous regions. -/
theorem c54_tree_optimal (hs : Spec.Symmetric adj) (h2 : p + 2 ≤ n)
    (hd : ∀ i j, i < j → 0 ≤ d i j) {P : Lp (TreeVar n)} (hP : treeLp adj d p = .ok P)
    {vals : TreeVar n → Option ℚ} (hv : P.Solved vals) {r : Rng} {l : List Nat}
    (hl : treeDecode p vals r = .ok l) {κ : Type} [DecidableEq κ] {L : Fin n → κ}
    (hL : Feasible adj L p) :
    withinPairs (labelsOf (n := n) l) d ≤ withinPairs L d := by
  obtain ⟨a, ⟨ha, hopt⟩, hvals⟩ := hv
  have hsol := (tree_feasible_iff hP).1 ha
  obtain ⟨N, hlt, hsurj, hiff⟩ := exists_numbering L hL.2
  obtain ⟨b, hb, ht⟩ := tree_representable (p := p) hs (allContiguous_congr hiff hL.1) hlt hsurj h2
  have h1 := hopt b ((tree_feasible_iff hP).2 hb)
  obtain ⟨f, hf, h⟩ := c52_tree_sound (.inl h2) hP ha hvals r
  rw [treeLp_ok, Res.ok.injEq] at hP
  rw [← hP, eval_objective, eval_objective] at h1
  rw [← withinPairs_congr hiff d, withinPairs_eq N]
  rcases h with ⟨-, l', hl', -, hlf, -⟩ | ⟨-, h⟩
  · rw [hl, Res.ok.injEq] at hl'
    subst hl'
    refine le_trans (withinPairs_le _ hd (fun i j => a (.t i j)) (fun i j hij => (hsol.t01 i j).1) ?_)
      (h1.trans (le_of_eq ?_))
    · intro i j hij heq
      rcases (hf i j).1 ((hlf i j).1 heq) with h3 | h3
      · omega
      · exact h3.ge
    · refine sum_congr rfl fun e _ => ?_
      rw [ht]
      split_ifs <;> simp
  · rw [h] at hl; exact absurd hl (by simp)

/-- C54: if the dissimilarities of distinct areas are positive, an optimal solution of the tree model
never merges regions, so that the labels can be read off. -/
theorem c54_tree_decodes (h2 : p + 2 ≤ n) (hd : ∀ i j, i < j → 0 < d i j) {P : Lp (TreeVar n)}
    (hP : treeLp adj d p = .ok P) {vals : TreeVar n → Option ℚ} (hv : P.Solved vals) (r : Rng) :
    ∃ l, treeDecode p vals r = .ok l ∧ l.length = n ∧ Feasible adj (labelsOf (n := n) l) p ∧
      ∀ i : Fin n, labelsOf l i < p := by
  obtain ⟨a, ⟨ha, hopt⟩, hvals⟩ := hv
  obtain ⟨f, hf, h⟩ := c52_tree_sound (.inl h2) hP ha hvals r
  rcases h with ⟨-, l, hl, hlen, -, hlt, hfe⟩ | ⟨hlt, -⟩
  · exact ⟨l, hl, hlen, hfe, hlt⟩
  · exfalso
    have hsol := (tree_feasible_iff hP).1 ha
    obtain ⟨g, hg, hgt, hgs⟩ := hsol.split (by omega)
    have h1 := hopt _ ((tree_feasible_iff hP).2 hgs)
    rw [treeLp_ok, Res.ok.injEq] at hP
    rw [← hP, eval_objective, eval_objective] at h1
    have hle : ∀ i j, i < j → retie a g (.t i j) ≤ a (.t i j) := by
      intro i j hij
      simp only [retie]
      split_ifs with hgij
      · rcases hgt i j hgij with h3 | h3
        · omega
        · exact h3.ge
      · exact (hsol.t01 i j).1
    have hex : ∃ i j, i < j ∧ g i ≠ g j ∧ f i = f j := by
      by_contra hcon
      push Not at hcon
      have hfg : ∀ i j, f i = f j → g i = g j := by
        intro i j hij
        by_contra hne
        rcases lt_trichotomy i j with h3 | h3 | h3
        · exact hcon i j h3 hne hij
        · exact hne (by rw [h3])
        · exact hcon j i h3 (Ne.symm hne) hij.symm
      have hgf : ∀ i j, f i = f j ↔ g i = g j := fun i j => ⟨hfg i j, fun hij =>
        (hf i j).2 (hgt i j hij)⟩
      have := numRegions_congr hgf
      omega
    obtain ⟨i, j, hij, hgij, hfij⟩ := hex
    refine absurd h1 (not_le.2 ?_)
    refine Finset.sum_lt_sum (fun e he => ?_) ⟨(i, j), by simpa using hij, ?_⟩
    · have he' : e.1 < e.2 := by simpa using he
      exact mul_le_mul_of_nonneg_left (by exact_mod_cast hle _ _ he') (hd _ _ he').le
    · have h3 : a (.t i j) = 1 := by
        rcases (hf i j).1 hfij with h3 | h3
        · omega
        · exact h3
      have h4 : retie a g (.t i j) = 0 := by simp [retie, hgij]
      rw [h3, h4]
      have := hd i j hij
      simpa using this

end

/-! ### Concrete cases -/

theorem path4_feasible2 : Feasible path4 (![0, 0, 1, 1] : Labels 4) 2 :=
  ⟨path4_cont, by decide +kernel⟩

theorem path4_feasible13 : Feasible path4 (![0, 1, 1, 1] : Labels 4) 2 :=
  ⟨((c04_assert_feasible_ok ![0, 1, 1, 1] path4 none).1 (by decide +kernel)).1, by decide +kernel⟩

/-- The dissimilarities of the attribute values `v`. -/
def gap {n : Nat} (v : Fin n → ℚ) (i j : Fin n) : ℚ := |v i - v j|

/-- The flow model of a path of four areas and two regions is built, has a solution and an optimal
one. -/
example : Spec.Symmetric path4 ∧ (∃ P, flowLp path4 (gap ![0, 10, 10, 10]) 2 = .ok P ∧
    (∃ a, P.Feasible a) ∧ ∃ a, P.Optimal a) := by
  obtain ⟨P, hP⟩ := (c48_flow_builds (d := gap ![0, 10, 10, 10]) (p := 2) (by omega)).2 path4_symm
  have hsize : ∀ c, ((univ.filter fun i => (![0, 0, 1, 1] : Labels 4) i = c).card : Int) ≤ (4 : Nat) - (2 : Nat) := by
    intro c
    by_cases h : c = 0 ∨ c = 1
    · rcases h with rfl | rfl <;> decide +kernel
    · have : (univ.filter fun i => (![0, 0, 1, 1] : Labels 4) i = c) = ∅ := by
        refine filter_eq_empty_iff.2 fun i _ hi => h ?_
        fin_cases i <;> simp at hi <;> omega
      rw [this]; decide
  refine ⟨path4_symm, P, hP, ?_, c49_flow_solvable (by omega) hP path4_feasible2 hsize⟩
  obtain ⟨a, ha, -⟩ := (c49_flow_representable_partial (by omega) hP path4_feasible2
    (by decide +kernel)).2 hsize
  exact ⟨a, ha⟩

example : ¬ Spec.Symmetric arrow2 := by unfold Spec.Symmetric; decide +kernel
example : flowLp arrow2 (gap ![0, 1]) 1 = .raise .keyError :=
  c48_flow_key_error (by omega) (by unfold Spec.Symmetric; decide +kernel)

/-- C49 is false: the clustering `0 | 1, 2, 3` of a path into two contiguous regions is not read off any
solution of the flow model. -/
theorem c49_not_representable : Feasible path4 (![0, 1, 1, 1] : Labels 4) 2 ∧
    ∀ P, flowLp path4 (gap ![0, 10, 10, 10]) 2 = .ok P → ∀ a, P.Feasible a →
      flowDecode 2 (fun v => some (a v : ℚ)) ≠ (![0, 1, 1, 1] : Labels 4) := by
  refine ⟨path4_feasible13, fun P hP a ha h => ?_⟩
  have := flow_size (by omega) hP ha (reads_self P a) 1
  rw [h] at this
  exact absurd this (by decide +kernel)

/-- The order model of the path is built and solvable, and so is the tree model. -/
example : Spec.Symmetric path4 ∧ (∃ P, orderLp path4 (gap ![0, 10, 10, 10]) 2 = .ok P ∧ ∃ a, P.Optimal a) ∧
    ∃ P, treeLp path4 (gap ![0, 10, 11, 12]) 2 = .ok P ∧ ∃ a, P.Optimal a := by
  obtain ⟨P, hP⟩ := (c50_order_builds (adj := path4) (d := gap ![0, 10, 10, 10]) (p := 2)
    (by omega) (by omega)).2 (by omega)
  obtain ⟨Q, hQ⟩ := c52_tree_builds (adj := path4) (d := gap ![0, 10, 11, 12]) (p := 2)
  exact ⟨path4_symm, ⟨P, hP, c51_order_solvable path4_symm (by omega) (by omega) hP path4_feasible13⟩,
    Q, hQ, c53_tree_solvable path4_symm (by omega) hQ path4_feasible13⟩

/-- The dissimilarities are as the optimality theorems want them. -/
example : (∀ i j : Fin 4, i < j → 0 ≤ gap ![0, 10, 10, 10] i j) ∧
    (∀ i j : Fin 4, i < j → 0 < gap ![0, 10, 11, 12] i j) ∧ ∀ i, path4 i i = false := by decide +kernel

/-! ### A solution of the tree model that merges regions -/

/-- Two edges, but all areas together. -/
def mergedA : TreeVar 4 → ℤ
  | .t _ _ => 1
  | .x i j => if (i.val = 0 ∧ j.val = 1) ∨ (i.val = 2 ∧ j.val = 3) then 1 else 0
  | .u i => if i.val = 0 ∨ i.val = 2 then 1 else 2

theorem mergedA_sol : TreeSol path4 2 mergedA := by
  constructor <;> decide +kernel

/-- If all areas are alike, there is an optimal solution of the tree model for two regions that merges
them, and reading off the labels raises `KeyError`. -/
theorem c54_tree_merges : ∃ P vals, treeLp path4 (gap ![7, 7, 7, 7]) 2 = .ok P ∧ P.Solved vals ∧
    ∀ r, treeDecode 2 vals r = .raise .keyError := by
  obtain ⟨P, hP⟩ := c52_tree_builds (adj := path4) (d := gap ![7, 7, 7, 7]) (p := 2)
  have hobj : ∀ a, P.objective.eval a = 0 := by
    intro a
    rw [treeLp_ok, Res.ok.injEq] at hP
    rw [← hP, eval_objective]
    refine sum_eq_zero fun e _ => ?_
    have : ∀ i j : Fin 4, gap ![7, 7, 7, 7] i j = 0 := by decide +kernel
    rw [this, zero_mul]
  refine ⟨P, fun v => some (mergedA v : ℚ), hP, ⟨mergedA, ⟨(tree_feasible_iff hP).2 mergedA_sol, ?_⟩,
    reads_self _ _⟩, fun r => ?_⟩
  · intro b _
    rw [hobj, hobj]
  · obtain ⟨f, hf, h⟩ := c52_tree_sound (.inl (by omega)) hP ((tree_feasible_iff hP).2 mergedA_sol)
      (reads_self P mergedA) r
    rcases h with ⟨h, -⟩ | ⟨-, h⟩
    · exfalso
      have hc : ∀ i, f i = f 0 := fun i => (hf i 0).2 (.inr rfl)
      have : numRegions f = 1 := by
        unfold numRegions
        rw [show f = fun _ => f 0 from funext hc, image_const univ_nonempty, card_singleton]
      omega
    · exact h

/-- A chosen edge from an area to itself. -/
def loopA : TreeVar 2 → ℤ
  | .t i j => if i = j then 1 else 0
  | .x i j => if i.val = 0 ∧ j.val = 0 then 1 else 0
  | .u _ => 1

/-- The hypotheses of C52 on the map are needed: with areas that are their own neighbors (and one area
more than regions) there are solutions of the tree model from which labels for one area only are read
off. -/
theorem c52_self_loop : ∃ P, treeLp (fun _ _ : Fin 2 => true) (gap ![0, 1]) 1 = .ok P ∧ P.Feasible loopA ∧
    treeDecode 1 (fun v => some (loopA v : ℚ)) (fun _ => 0) = .ok [0] := by
  obtain ⟨P, hP⟩ := c52_tree_builds (adj := fun _ _ : Fin 2 => true) (d := gap ![0, 1]) (p := 1)
  refine ⟨P, hP, (tree_feasible_iff hP).2 ?_, by decide +kernel⟩
  constructor <;> decide +kernel

/-! ### `fit` -/

/-- The solver finds an optimal solution of every problem that has one. -/
def Correct {V : Type} (s : Solver V) : Prop :=
  ∀ P : Lp V, (∃ a, P.Optimal a) → P.Solved (s P)

/-- There are such solvers. -/
example {V : Type} : ∃ s : Solver V, Correct s := by
  classical
  refine ⟨fun P => if h : ∃ a, P.Optimal a then fun v => some (h.choose v : ℚ) else fun _ => none, ?_⟩
  intro P h
  simp only [dif_pos h]
  exact ⟨h.choose, h.choose_spec, reads_self _ _⟩

/-- What is used instead: the sum of the metric over all pairs of an attribute of the one and an
attribute of the other area. -/
theorem c55_formula {n m : Nat} (metric : Metric) (attr : Fin n → Row m) (i j : Fin n) :
    columnD metric attr i j = ∑ a, ∑ b, metric 1 (fun _ => attr i a) (fun _ => attr j b) := by
  simp only [columnD, sum_flatMap, sum_finRange]

/-- C55 (part): with one attribute the dissimilarity used by the models is the metric applied to the
attributes of the areas.  Missing: more attributes, see `c55_reshaped`. -/
theorem c55_one_attribute_partial {n : Nat} (metric : Metric) (attr : Fin n → Row 1) (i j : Fin n) :
    columnD metric attr i j = metric 1 (attr i) (attr j) := by
  have : ∀ i, (fun _ : Fin 1 => attr i 0) = attr i := fun i => funext fun k => by
    rw [Subsingleton.elim k 0]
  rw [c55_formula]
  simp only [univ_unique, sum_singleton, Fin.default_eq_zero, Fin.isValue, this]

theorem columnD_one {n : Nat} (metric : Metric) (attr : Fin n → Row 1) :
    columnD metric attr = fun i j => metric 1 (attr i) (attr j) :=
  funext fun _ => funext fun _ => c55_one_attribute_partial _ _ _ _

/-- Manhattan distance for any number of attributes. -/
def manhattanM : Metric := fun _ => manhattan

/-- C55 is false: two areas with the same two attributes are not considered equal. -/
theorem c55_reshaped : columnD manhattanM (fun _ : Fin 2 => ![0, 1]) 0 1 = 2 ∧
    manhattan (![0, 1] : Row 2) ![0, 1] = 0 := by decide +kernel

section
variable {n : Nat} {adj : Adj n} {metric : Metric} {p : Int}

theorem exactFit_order {m : Nat} {attr : Fin n → Row m} (hp : 0 < p) (hpn : p ≤ n) {s : Solvers n} {r : Rng}
    {P : Lp (OrderVar n)} (hP : orderLp adj (columnD metric attr) p.toNat = .ok P) :
    exactFit adj attr p .order s metric r = .ok (arrayList (orderDecode p.toNat (s.order P))) := by
  unfold exactFit
  rw [if_neg (by omega), if_neg (by omega)]
  simp [order, hP]

theorem exactFit_flow {m : Nat} {attr : Fin n → Row m} (hp : 0 < p) (hpn : p ≤ n) {s : Solvers n} {r : Rng}
    {P : Lp (FlowVar n)} (hP : flowLp adj (columnD metric attr) p.toNat = .ok P) :
    exactFit adj attr p .flow s metric r = .ok (arrayList (flowDecode p.toNat (s.flow P))) := by
  unfold exactFit
  rw [if_neg (by omega), if_neg (by omega)]
  simp [flow, hP]

/-- C54 for `fit(…, method="order")` with one attribute: if the solver works and there are at least two
more areas than regions, `labels_` is a clustering into `n_regions` contiguous regions (provided there is
one), and none is better. -/
theorem c54_fit_order {attr : Fin n → Row 1} (hs : Spec.Symmetric adj) (hp : 0 < p) (h2 : p + 2 ≤ n)
    (hm : ∀ i j, i < j → 0 ≤ metric 1 (attr i) (attr j)) {L₀ : Labels n}
    (h₀ : Feasible adj L₀ p.toNat) {s : Solvers n} (hc : Correct s.order) (r : Rng) :
    ∃ L : Labels n, exactFit adj attr p .order s metric r = .ok (arrayList L) ∧
      Feasible adj L p.toNat ∧ ∀ L' : Labels n, Feasible adj L' p.toNat →
        (pairwise (metric 1)).call L attr ≤ (pairwise (metric 1)).call L' attr := by
  obtain ⟨P, hP⟩ := (c50_order_builds (adj := adj) (d := columnD metric attr) (p := p.toNat)
    (by omega) (by omega)).2 (by omega)
  have hsol := hc P (c51_order_solvable hs (by omega) (by omega) hP h₀)
  obtain ⟨a, ha, hv⟩ := hsol
  refine ⟨_, exactFit_order hp (by omega) hP, (c50_order_sound (by omega) hP ha.1 hv).1, fun L' hL' => ?_⟩
  have := c54_order_optimal hs (by omega) (by omega) (fun i j hij => by
    rw [c55_one_attribute_partial]; exact hm i j hij) hP ⟨a, ha, hv⟩ hL'
  rw [c18_pairwise, c18_pairwise]
  rwa [columnD_one] at this

/-- C54 for `fit(…, method="tree")` with one attribute and positive dissimilarities. -/
theorem c54_fit_tree {attr : Fin n → Row 1} (hs : Spec.Symmetric adj) (hp : 0 < p) (h2 : p + 2 ≤ n)
    (hm : ∀ i j, i < j → 0 < metric 1 (attr i) (attr j)) {L₀ : Labels n}
    (h₀ : Feasible adj L₀ p.toNat) {s : Solvers n} (hc : Correct s.tree) (r : Rng) :
    ∃ L : Labels n, exactFit adj attr p .tree s metric r = .ok (arrayList L) ∧
      Feasible adj L p.toNat ∧ ∀ L' : Labels n, Feasible adj L' p.toNat →
        (pairwise (metric 1)).call L attr ≤ (pairwise (metric 1)).call L' attr := by
  obtain ⟨P, hP⟩ := c52_tree_builds (adj := adj) (d := columnD metric attr) (p := p.toNat)
  have hsol := hc P (c53_tree_solvable hs (by omega) hP h₀)
  have hd : ∀ i j, i < j → 0 < columnD metric attr i j := fun i j hij => by
    rw [c55_one_attribute_partial]; exact hm i j hij
  obtain ⟨l, hl, hlen, hf, -⟩ := c54_tree_decodes (by omega) hd hP hsol r
  have hinj : ∀ i j : Fin n, ((labelsOf l i : Nat) : Int) = ((labelsOf l j : Nat) : Int) ↔
      labelsOf l i = labelsOf l j := fun i j => Int.natCast_inj
  refine ⟨fun i => (labelsOf l i : Nat), ?_, ⟨allContiguous_congr hinj hf.1, ?_⟩, fun L' hL' => ?_⟩
  · unfold exactFit
    rw [if_neg (by omega), if_neg (by omega)]
    simp only [tree, hP, Res.bind_ok, hl, Res.ok.injEq]
    apply List.ext_getElem
    · simp [arrayList, hlen]
    · intro i h1 h3
      simp [arrayList, labelsOf, List.getD_eq_getElem?_getD]
      rw [List.getElem?_eq_getElem (by simpa using h1)]
      rfl
  · exact (numRegions_congr hinj).trans hf.2
  · have := c54_tree_optimal hs (by omega) (fun i j hij => (hd i j hij).le) hP hsol hl hL'
    rw [c18_pairwise, c18_pairwise, withinPairs_congr hinj]
    rwa [columnD_one] at this

/-- C54 (part) for `fit(…, method="flow")` with one attribute: no clustering without a region of more
than `n_areas - n_regions` areas is better. -/
theorem c54_fit_flow_partial {attr : Fin n → Row 1} (hs : Spec.Symmetric adj) (hp : 0 < p) (hpn : p ≤ n)
    (hm : ∀ i j, i < j → 0 ≤ metric 1 (attr i) (attr j)) {L₀ : Labels n}
    (h₀ : Feasible adj L₀ p.toNat)
    (hsize : ∀ c, ((univ.filter fun i => L₀ i = c).card : Int) ≤ n - p)
    {s : Solvers n} (hc : Correct s.flow) (r : Rng) :
    ∃ L : Labels n, exactFit adj attr p .flow s metric r = .ok (arrayList L) ∧
      Feasible adj L p.toNat ∧ ∀ L' : Labels n, Feasible adj L' p.toNat →
        (∀ c, ((univ.filter fun i => L' i = c).card : Int) ≤ n - p) →
        (pairwise (metric 1)).call L attr ≤ (pairwise (metric 1)).call L' attr := by
  have hpp : ((p.toNat : Nat) : Int) = p := Int.toNat_of_nonneg hp.le
  obtain ⟨P, hP⟩ := (c48_flow_builds (adj := adj) (d := columnD metric attr) (p := p.toNat)
    (by omega)).2 hs
  have hsol := hc P (c49_flow_solvable (by omega) hP h₀ (by rw [hpp]; exact hsize))
  obtain ⟨a, ha, hv⟩ := hsol
  refine ⟨_, exactFit_flow hp hpn hP, (c48_flow_sound (by omega) hP ha.1 hv).1, fun L' hL' hz => ?_⟩
  have := c54_flow_optimal_partial (by omega) (fun i j hij => by
    rw [c55_one_attribute_partial]; exact hm i j hij) hP ⟨a, ha, hv⟩ hL' (by rw [hpp]; exact hz)
  rw [c18_pairwise, c18_pairwise]
  rwa [columnD_one] at this

end

/-- The hypotheses for the path with attributes 0, 10, 11, 12 and two regions. -/
example : Spec.Symmetric path4 ∧ (2 : Int) + 2 ≤ (4 : Nat) ∧
    (∀ i j : Fin 4, i < j → 0 < manhattanM 1 (column ![0, 10, 11, 12] i) (column ![0, 10, 11, 12] j)) ∧
    Feasible path4 (![0, 0, 1, 1] : Labels 4) (2 : Int).toNat :=
  ⟨path4_symm, by decide, by decide +kernel, path4_feasible2⟩

/-- C54 is false for the flow method: whatever the solver, on the path with attributes 0, 10, 10, 10 it
does not find the clustering `0 | 1, 2, 3`, which is better than the one returned. -/
theorem c54_flow_not_optimal {s : Solvers 4} (hc : Correct s.flow) (r : Rng) :
    ∃ L : Labels 4, exactFit path4 (column ![0, 10, 10, 10]) 2 .flow s manhattanM r = .ok (arrayList L) ∧
      (pairwise manhattan).call (![0, 1, 1, 1] : Labels 4) (column ![0, 10, 10, 10]) <
        (pairwise manhattan).call L (column ![0, 10, 10, 10]) := by
  have hsize : ∀ c, ((univ.filter fun i => (![0, 0, 1, 1] : Labels 4) i = c).card : Int) ≤ (4 : Nat) - (2 : Nat) := by
    intro c
    by_cases h : c = 0 ∨ c = 1
    · rcases h with rfl | rfl <;> decide +kernel
    · have : (univ.filter fun i => (![0, 0, 1, 1] : Labels 4) i = c) = ∅ := by
        refine filter_eq_empty_iff.2 fun i _ hi => h ?_
        fin_cases i <;> simp at hi <;> omega
      rw [this]; decide
  obtain ⟨P, hP⟩ := (c48_flow_builds (adj := path4) (d := columnD manhattanM (column ![0, 10, 10, 10]))
    (p := 2) (by omega)).2 path4_symm
  obtain ⟨a, ha, hv⟩ := hc P (c49_flow_solvable (by omega) hP path4_feasible2 hsize)
  have h1 := c48_flow_sound (by omega) hP ha.1 hv
  refine ⟨_, exactFit_flow (p := 2) (by omega) (by omega) hP, ?_⟩
  obtain ⟨N, hN, hlt, -⟩ := exists_nat_labels h1.2 h1.1.2
  have key : ∀ M : Fin 4 → Fin 2, (∀ c : Fin 2, (univ.filter fun i => M i = c).card ≤ 2) →
      withinPairs (![0, 1, 1, 1] : Labels 4) (gap ![0, 10, 10, 10]) <
        withinPairs M (gap ![0, 10, 10, 10]) := by decide +kernel
  have hM : ∀ i j, (⟨N i, hlt i⟩ : Fin 2) = ⟨N j, hlt j⟩ ↔
      flowDecode 2 (s.flow P) i = flowDecode 2 (s.flow P) j := by
    intro i j; rw [hN, hN, Fin.mk.injEq]; omega
  have h2 := key (fun i => ⟨N i, hlt i⟩) (fun c => by
    have := flow_size (by omega) hP ha.1 hv (c.val : Int)
    have heq : (univ.filter fun i => (⟨N i, hlt i⟩ : Fin 2) = c) =
        univ.filter fun i => flowDecode 2 (s.flow P) i = (c.val : Int) := by
      ext i
      simp only [mem_filter, mem_univ, true_and]
      rw [hN, Fin.ext_iff, Int.natCast_inj]
    rw [heq]
    push_cast at this
    omega)
  rw [withinPairs_congr hM] at h2
  rw [c18_pairwise, c18_pairwise]
  have hgap : ∀ i j : Fin 4, manhattan (column ![0, 10, 10, 10] i) (column ![0, 10, 10, 10] j) =
      gap ![0, 10, 10, 10] i j := by decide +kernel
  simp only [hgap]
  exact h2

/-- The rows (5, 5), (0, 100), (0, 100), (0, 100). -/
def rows4 : Fin 4 → Row 2 := ![![5, 5], ![0, 100], ![0, 100], ![0, 100]]

/-- C55 is false, and it matters: whatever the solver, on the path with these rows the order method does
not find the clustering `0 | 1, 2, 3`, whose objective is zero, but one with a larger objective. -/
theorem c55_wrong_optimum {s : Solvers 4} (hc : Correct s.order) (r : Rng) :
    ∃ L : Labels 4, exactFit path4 rows4 2 .order s manhattanM r = .ok (arrayList L) ∧
      (pairwise manhattan).call (![0, 1, 1, 1] : Labels 4) rows4 = 0 ∧
      0 < (pairwise manhattan).call L rows4 := by
  obtain ⟨P, hP⟩ := (c50_order_builds (adj := path4) (d := columnD manhattanM rows4) (p := 2)
    (by omega) (by omega)).2 (by omega)
  obtain ⟨a, ha, hv⟩ := hc P (c51_order_solvable path4_symm (by omega) (by omega) hP path4_feasible2)
  have h1 := c50_order_sound (by omega) hP ha.1 hv
  refine ⟨_, exactFit_order (p := 2) (by omega) (by omega) hP, by decide +kernel, ?_⟩
  obtain ⟨N, hN, hlt, -⟩ := exists_nat_labels h1.2 h1.1.2
  have key : ∀ M : Fin 4 → Fin 2, withinPairs M (columnD manhattanM rows4) ≤
      withinPairs (![0, 0, 1, 1] : Labels 4) (columnD manhattanM rows4) →
      0 < withinPairs M (fun i j => manhattan (rows4 i) (rows4 j)) := by decide +kernel
  have hM : ∀ i j, (⟨N i, hlt i⟩ : Fin 2) = ⟨N j, hlt j⟩ ↔
      orderDecode 2 (s.order P) i = orderDecode 2 (s.order P) j := by
    intro i j; rw [hN, hN, Fin.mk.injEq]; omega
  have h2 := key (fun i => ⟨N i, hlt i⟩) (by
    rw [withinPairs_congr hM]
    exact c54_order_optimal path4_symm (by omega) (by omega) (by decide +kernel) hP ⟨a, ha, hv⟩
      path4_feasible2)
  rw [withinPairs_congr hM] at h2
  rw [c18_pairwise]
  exact h2

/-! ### C71: problems without a solution -/

/-- C71: if the solver leaves the variables without values, the flow method returns zeros. -/
theorem c71_flow_ignores_status {n : Nat} {adj : Adj n} {d : Fin n → Fin n → ℚ} {p : Nat}
    (hs : Spec.Symmetric adj) (hp : 0 < p) : flow adj d p (fun _ _ => none) = .ok fun _ => 0 := by
  obtain ⟨P, hP⟩ := (c48_flow_builds (d := d) hp).2 hs
  have h0 : ∀ l : List Nat, l.foldl (fun r (k : Nat) => if (none : Option ℚ) = some 1 then (k : Int) else r) 0 = 0 := by
    intro l
    induction l with
    | nil => rfl
    | cons x xs ih => simp
  simp only [flow, hP, Res.bind_ok, Res.ok.injEq]
  funext i
  exact h0 _

/-- The solvers that give up. -/
def giveUp (n : Nat) : Solvers n := ⟨fun _ _ => none, fun _ _ => none, fun _ _ => none⟩

/-- C71 is false: for as many regions as areas the flow model has no solution, but when the solver
gives up `fit` puts all areas into one region without complaint. -/
theorem c71_flow_silent : (∀ P, flowLp path4 (columnD manhattanM (ramp 4)) 4 = .ok P → ∀ a, ¬ P.Feasible a) ∧
    exactFit path4 (ramp 4) 4 .flow (giveUp 4) manhattanM (fun _ => 0) = .ok [0, 0, 0, 0] :=
  ⟨fun _ hP a => c49_singletons_infeasible (by omega) hP a, by decide +kernel⟩

/-- The same for the order method with one area more than regions … -/
theorem c71_order_silent : (∀ P, orderLp path4 (columnD manhattanM (ramp 4)) 3 = .ok P → ∀ a, ¬ P.Feasible a) ∧
    exactFit path4 (ramp 4) 3 .order (giveUp 4) manhattanM (fun _ => 0) = .ok [0, 0, 0, 0] :=
  ⟨fun _ hP a => c51_order_infeasible hP a, by decide +kernel⟩

/-- … and for the tree method, where the number of labels is wrong, too. -/
theorem c71_tree_silent : (∀ P, treeLp path4 (columnD manhattanM (ramp 4)) 3 = .ok P → ∀ a, ¬ P.Feasible a) ∧
    exactFit path4 (ramp 4) 3 .tree (giveUp 4) manhattanM (fun _ => 0) = .ok [0, 1, 2] :=
  ⟨fun _ hP a => c53_tree_infeasible path4_symm (by decide +kernel) (by omega) (by omega) hP a,
    by decide +kernel⟩

/-- C71 for the arguments themselves: `fit` rejects a number of regions that is not positive, or that
exceeds the number of areas, each with its own message and whatever the rest. -/
theorem c71_n_regions {n m : Nat} (adj : Adj n) (attr : Fin n → Row m) (p : Int)
    (method : Method) (s : Solvers n) (metric : Metric) (r : Rng) :
    (p ≤ 0 → exactFit adj attr p method s metric r =
      .raise (.valueError "The n_regions argument must be a positive integer.")) ∧
    ((n : Int) < p → 0 < p → exactFit adj attr p method s metric r =
      .raise (.valueError "The number of regions must be less than the number of areas.")) := by
  unfold exactFit
  exact ⟨fun h => if_pos h, fun h h0 => by rw [if_neg (by omega), if_pos h]⟩

/-- Five regions on four areas. -/
example : exactFit path4 (ramp 4) 5 .flow (giveUp 4) manhattanM (fun _ => 0) =
    .raise (.valueError "The number of regions must be less than the number of areas.") :=
  (c71_n_regions _ _ _ _ _ _ _).2 (by decide) (by decide)

end Region.Props
