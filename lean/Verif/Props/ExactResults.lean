import Verif.Lemmas.ExactNames
import Verif.Props.PRegionsExact
import Verif.Props.MaxPExact
import Verif.Props.Zoning
/-
Property theorems C116: everything the exact methods can return.
-/
namespace Region.Props

open Region Spec Finset

/-- Specification: a clustering into `p` contiguous regions than which none has a smaller sum of the
dissimilarities within regions. -/
def Optimum {n : Nat} (adj : Adj n) (d : Fin n → Fin n → ℚ) (p : Nat) (L : Labels n) : Prop :=
  Feasible adj L p ∧ ∀ L' : Labels n, Feasible adj L' p → withinPairs L d ≤ withinPairs L' d

/-- The regions are named `0 … p-1`. -/
def Named {n : Nat} (p : Nat) (L : Labels n) : Prop := ∀ i, 0 ≤ L i ∧ L i < p

/-- A working solver that finds given values for one problem. -/
theorem exists_correct {V : Type} {P : Lp V} {vals : V → Option ℚ} (hv : P.Solved vals) :
    ∃ s : Solver V, Correct s ∧ s P = vals := by
  classical
  refine ⟨fun Q => if Q = P then vals else
    if h : ∃ b, Q.Optimal b then fun v => some (h.choose v : ℚ) else fun _ => none, ?_, by simp⟩
  intro Q hQ
  dsimp only
  split_ifs with h
  · subst h
    exact hv
  · exact ⟨_, hQ.choose_spec, fun _ _ => rfl⟩

section
variable {n : Nat} {adj : Adj n} {d : Fin n → Fin n → ℚ} {p : Nat}

theorem sum_indicator {κ : Type} [DecidableEq κ] (L : Fin n → κ) (t : Fin n → Fin n → ℤ)
    (ht : ∀ i j, t i j = if L i = L j then 1 else 0) :
    ∑ e ∈ univ.filter (fun e : Fin n × Fin n => e.1 < e.2), d e.1 e.2 * (t e.1 e.2 : ℚ) =
      withinPairs L d := by
  rw [withinPairs_eq]
  refine sum_congr rfl fun e _ => ?_
  rw [ht]
  split_ifs <;> simp

/-! ### The order model -/

/-- C116: the labels that can be read off optimal solutions of the order model are the optima. -/
theorem c116_order (hs : Spec.Symmetric adj) (hp : 0 < p) (h2 : p + 2 ≤ n)
    (hd : ∀ i j, i < j → 0 ≤ d i j) {P : Lp (OrderVar n)} (hP : orderLp adj d p = .ok P) (L : Labels n) :
    (∃ vals, P.Solved vals ∧ orderDecode p vals = L) ↔ Optimum adj d p L ∧ Named p L := by
  constructor
  · rintro ⟨vals, hv, rfl⟩
    obtain ⟨a, ha, hr⟩ := hv
    obtain ⟨h1, h3⟩ := c50_order_sound hp hP ha.1 hr
    exact ⟨⟨h1, fun L' hL' => c54_order_optimal hs hp h2 hd hP ⟨a, ha, hr⟩ hL'⟩, h3⟩
  · rintro ⟨⟨hL, hopt⟩, hr⟩
    obtain ⟨N, hN, hlt, hsurj⟩ := exists_nat_labels hr hL.2
    have hiff : ∀ i j, N i = N j ↔ L i = L j := fun i j => by rw [hN, hN]; omega
    obtain ⟨a, ha, hx, ht⟩ := order_representable (p := p) hs (allContiguous_congr hiff hL.1) hlt hsurj hp h2
    refine ⟨fun v => some (a v : ℚ), ⟨a, ⟨(order_feasible_iff hP).2 ha, fun b hb => ?_⟩, fun _ _ => rfl⟩, ?_⟩
    · have hsol := (order_feasible_iff hP).1 hb
      have hD := hsol.decode (order_reads hP (reads_self P b))
      have h1 := hopt _ (c50_order_sound hp hP hb (reads_self P b)).1
      rw [orderLp_eq hP, eval_objective, eval_objective,
        sum_indicator N (fun i j => a (.t i j)) ht, withinPairs_congr hiff]
      exact h1.trans (withinPairs_le _ hd (fun i j => b (.t i j)) (fun i j hij => (hsol.t01 i j hij).1)
        fun i j hij heq => hsol.t_ge hD hij heq)
    · funext i
      obtain ⟨k, o, hk, ho, h1, h3, -⟩ := ha.decode (order_reads hP (reads_self P a)) i
      rw [h1, hN i, hx i k o hk ho h3]

/-! ### The flow model -/

/-- C116: for the flow model they are the best clusterings without a region of more than
`n_areas - n_regions` areas. -/
theorem c116_flow (hs : Spec.Symmetric adj) (hp : 0 < p) (hd : ∀ i j, i < j → 0 ≤ d i j)
    {P : Lp (FlowVar n)} (hP : flowLp adj d p = .ok P) (L : Labels n) :
    (∃ vals, P.Solved vals ∧ flowDecode p vals = L) ↔
      (Feasible adj L p ∧ (∀ c, ((univ.filter fun i => L i = c).card : Int) ≤ n - p) ∧
        ∀ L' : Labels n, Feasible adj L' p →
          (∀ c, ((univ.filter fun i => L' i = c).card : Int) ≤ n - p) →
          withinPairs L d ≤ withinPairs L' d) ∧ Named p L := by
  constructor
  · rintro ⟨vals, hv, rfl⟩
    obtain ⟨a, ha, hr⟩ := hv
    obtain ⟨h1, h3⟩ := c48_flow_sound hp hP ha.1 hr
    exact ⟨⟨h1, flow_size hp hP ha.1 hr, fun L' hL' hz =>
      c54_flow_optimal_partial hp hd hP ⟨a, ha, hr⟩ hL' hz⟩, h3⟩
  · rintro ⟨⟨hL, hz, hopt⟩, hr⟩
    obtain ⟨N, hN, hlt, hsurj⟩ := exists_nat_labels hr hL.2
    have hiff : ∀ i j, N i = N j ↔ L i = L j := fun i j => by rw [hN, hN]; omega
    obtain ⟨a, ha, hy, ht⟩ := flow_representable (p := p) hs (allContiguous_congr hiff hL.1) hlt hsurj
      (fun v => by
        refine le_trans (le_of_eq ?_) (hz (L v))
        rw [sizeAt_eq]
        simp only [hiff])
    refine ⟨fun v => some (a v : ℚ), ⟨a, ⟨(flow_feasible_iff hP).2 ha, fun b hb => ?_⟩, fun _ _ => rfl⟩, ?_⟩
    · have hsol := (flow_feasible_iff hP).1 hb
      obtain ⟨hD, hr'⟩ := hsol.flowDecode (flow_reads hP (reads_self P b))
      have h1 := hopt _ (c48_flow_sound hp hP hb (reads_self P b)).1
        (flow_size hp hP hb (reads_self P b))
      rw [flowLp_eq hP, eval_objective, eval_objective,
        sum_indicator N (fun i j => a (.t i j)) ht, withinPairs_congr hiff]
      refine h1.trans (withinPairs_le _ hd (fun i j => b (.t i j)) (fun i j hij => (hsol.t01 i j hij).1)
        fun i j hij heq => ?_)
      obtain ⟨k, hk, h⟩ := hr' i
      have h3 := (hD i k hk).1 h
      have h4 := (hD j k hk).1 (heq ▸ h)
      have := hsol.c27 i j k hij hk
      omega
    · funext i
      obtain ⟨hD, -⟩ := ha.flowDecode (flow_reads hP (reads_self P a))
      rw [hN i]
      exact (hD i (N i) (hlt i)).2 (by rw [hy]; simp)

/-! ### The tree model -/

/-- The value of every solution of the tree model is at least that of an optimum. -/
theorem tree_lower_bound (h2 : p + 2 ≤ n) (hd : ∀ i j, i < j → 0 ≤ d i j) {P : Lp (TreeVar n)}
    (hP : treeLp adj d p = .ok P) {b : TreeVar n → ℤ} (hb : P.Feasible b) {L : Labels n}
    (hopt : ∀ L' : Labels n, Feasible adj L' p → withinPairs L d ≤ withinPairs L' d) :
    withinPairs L d ≤
      ∑ e ∈ univ.filter (fun e : Fin n × Fin n => e.1 < e.2), d e.1 e.2 * (b (.t e.1 e.2) : ℚ) := by
  have hsol := (tree_feasible_iff hP).1 hb
  obtain ⟨g, hg, hgt, hgs⟩ := hsol.split (by omega)
  have hb' := (tree_feasible_iff hP).2 hgs
  obtain ⟨f, hf, h⟩ := c52_tree_sound (.inl h2) hP hb' (reads_self P _) (fun _ => 0)
  have hfg : ∀ i j, f i = f j ↔ g i = g j := by
    intro i j
    rw [hf]
    simp only [retie]
    constructor
    · rintro (rfl | h)
      · rfl
      · by_contra hne; simp [hne] at h
    · intro h; exact Or.inr (by simp [h])
  have hnum : numRegions f = p := (numRegions_congr hfg).trans hg
  rcases h with ⟨-, l, -, -, hlf, -, hfe⟩ | ⟨hlt, -⟩
  · have hinj : ∀ i j : Fin n, ((labelsOf l i : Nat) : Int) = ((labelsOf l j : Nat) : Int) ↔
        labelsOf l i = labelsOf l j := fun i j => Int.natCast_inj
    have h1 := hopt (fun i => (labelsOf l i : Nat))
      ⟨allContiguous_congr hinj hfe.1, (numRegions_congr hinj).trans hfe.2⟩
    refine h1.trans (withinPairs_le _ hd (fun i j => b (.t i j)) (fun i j _ => (hsol.t01 i j).1) ?_)
    intro i j hij heq
    rcases hgt i j ((hfg i j).1 ((hlf i j).1 ((hinj i j).1 heq))) with h3 | h3
    · omega
    · exact h3.ge
  · omega

/-- C116: the labels that can be read off optimal solutions of the tree model — the areas being popped
from the set in any order — are the optima. -/
theorem c116_tree (hs : Spec.Symmetric adj) (h2 : p + 2 ≤ n) (hd : ∀ i j, i < j → 0 ≤ d i j)
    {P : Lp (TreeVar n)} (hP : treeLp adj d p = .ok P) (L : Labels n) :
    (∃ vals r l, P.Solved vals ∧ treeDecode p vals r = .ok l ∧
      arrayList L = l.map fun k : Nat => (k : Int)) ↔ Optimum adj d p L ∧ Named p L := by
  constructor
  · rintro ⟨vals, r, l, hv, hl, hL⟩
    have hopt := fun L' : Labels n => c54_tree_optimal hs h2 hd hP hv hl (L := L')
    obtain ⟨a, ha, hr⟩ := hv
    obtain ⟨f, hf, h⟩ := c52_tree_sound (.inl h2) hP ha.1 hr r
    rcases h with ⟨-, l', hl', hlen, hlf, hlt, hfe⟩ | ⟨-, h⟩
    · rw [hl, Res.ok.injEq] at hl'
      subst hl'
      have hLl : ∀ i, L i = ((labelsOf l i : Nat) : Int) := by
        intro i
        have hi : i.val < l.length := by rw [hlen]; exact i.isLt
        have := congrArg (fun x => x[i.val]?) hL
        simp only [arrayList, List.getElem?_map, List.getElem?_eq_getElem hi, Option.map_some] at this
        rw [List.getElem?_eq_getElem (by simp)] at this
        simp only [Option.map_some, Option.some.injEq, List.getElem_finRange] at this
        rw [show L i = _ from this]
        simp [labelsOf, List.getD_eq_getElem?_getD, List.getElem?_eq_getElem hi]
      have hinj : ∀ i j : Fin n, L i = L j ↔ labelsOf l i = labelsOf l j := fun i j => by
        rw [hLl, hLl]; exact Int.natCast_inj
      refine ⟨⟨⟨allContiguous_congr hinj hfe.1, (numRegions_congr hinj).trans hfe.2⟩, fun L' hL' => ?_⟩,
        fun i => ?_⟩
      · rw [withinPairs_congr hinj]
        exact hopt L' hL'
      · rw [hLl]
        have := hlt i
        omega
    · rw [h] at hl; cases hl
  · rintro ⟨⟨hL, hopt⟩, hr⟩
    obtain ⟨N, hN, hlt, hsurj⟩ := exists_nat_labels hr hL.2
    have hiff : ∀ i j, N i = N j ↔ L i = L j := fun i j => by rw [hN, hN]; omega
    obtain ⟨a, ha, ht⟩ := tree_representable (p := p) hs (allContiguous_congr hiff hL.1) hlt hsurj h2
    have hval : ∀ i j, N i = N j ↔ i = j ∨ some ((a (.t i j) : ℤ) : ℚ) = some 1 := by
      intro i j
      rw [ht]
      by_cases h : N i = N j
      · simp [h]
      · simp only [h, if_false, Int.cast_zero, Option.some.injEq, false_iff, not_or]
        exact ⟨fun he => h (by rw [he]), by norm_num⟩
    obtain ⟨r, hdec⟩ := treeDecode_named (vals := fun v => some (a v : ℚ)) hval hlt hsurj
    refine ⟨_, r, _, ⟨a, ⟨(tree_feasible_iff hP).2 ha, fun b hb => ?_⟩, fun _ _ => rfl⟩, hdec, ?_⟩
    · have h1 := tree_lower_bound h2 hd hP hb hopt
      rw [treeLp_ok, Res.ok.injEq] at hP
      rw [← hP, eval_objective, eval_objective, sum_indicator N (fun i j => a (.t i j)) ht,
        withinPairs_congr hiff]
      exact h1
    · simp [arrayList, hN]

end

/-! ### `fit` -/

section
variable {n m : Nat} {adj : Adj n} {metric : Metric} {attr : Fin n → Row m} {p : Int}

/-- C116: what `fit(…, method="order")` can return with solvers that work, if there are clusterings to be
found.  The dissimilarities are those the code computes (C55). -/
theorem c116_fit_order (hs : Spec.Symmetric adj) (hp : 0 < p) (h2 : p + 2 ≤ n)
    (hd : ∀ i j, i < j → 0 ≤ columnD metric attr i j) {L₀ : Labels n} (h₀ : Feasible adj L₀ p.toNat)
    (r : Rng) (L : Labels n) :
    (∃ s : Solvers n, Correct s.order ∧ exactFit adj attr p .order s metric r = .ok (arrayList L)) ↔
      Optimum adj (columnD metric attr) p.toNat L ∧ Named p.toNat L := by
  obtain ⟨P, hP⟩ := (c50_order_builds (adj := adj) (d := columnD metric attr) (p := p.toNat)
    (by omega) (by omega)).2 (by omega)
  rw [← c116_order hs (by omega) (by omega) hd hP]
  constructor
  · rintro ⟨s, hc, hfit⟩
    rw [exactFit_order hp (by omega) hP, Res.ok.injEq] at hfit
    exact ⟨_, hc P (c51_order_solvable hs (by omega) (by omega) hP h₀), arrayList_inj hfit⟩
  · rintro ⟨vals, hv, hL⟩
    obtain ⟨s, hs', hsP⟩ := exists_correct hv
    refine ⟨⟨fun _ _ => none, s, fun _ _ => none⟩, hs', ?_⟩
    rw [exactFit_order hp (by omega) hP, ← hL]
    dsimp only
    rw [hsP]

/-- C116 for `fit(…, method="tree")`: the same results, if labels are returned at all (see
`c54_tree_merges`). -/
theorem c116_fit_tree (hs : Spec.Symmetric adj) (hp : 0 < p) (h2 : p + 2 ≤ n)
    (hd : ∀ i j, i < j → 0 ≤ columnD metric attr i j) {L₀ : Labels n} (h₀ : Feasible adj L₀ p.toNat)
    (L : Labels n) :
    (∃ (s : Solvers n) (r : Rng), Correct s.tree ∧
      exactFit adj attr p .tree s metric r = .ok (arrayList L)) ↔
      Optimum adj (columnD metric attr) p.toNat L ∧ Named p.toNat L := by
  obtain ⟨P, hP⟩ := c52_tree_builds (adj := adj) (d := columnD metric attr) (p := p.toNat)
  have hfit : ∀ (s : Solvers n) r, exactFit adj attr p .tree s metric r =
      (treeDecode p.toNat (s.tree P) r >>= fun l => .ok (l.map fun k : Nat => (k : Int))) := by
    intro s r
    unfold exactFit
    rw [if_neg (by omega), if_neg (by omega)]
    simp only [tree, hP, Res.bind_ok]
  rw [← c116_tree hs (by omega) hd hP]
  constructor
  · rintro ⟨s, r, hc, h⟩
    rw [hfit] at h
    obtain ⟨l, h1, h3⟩ := Res.bind_eq_ok.1 h
    rw [Res.ok.injEq] at h3
    exact ⟨_, r, l, hc P (c53_tree_solvable hs (by omega) hP h₀), h1, h3.symm⟩
  · rintro ⟨vals, r, l, hv, hl, hL⟩
    obtain ⟨s, hs', hsP⟩ := exists_correct hv
    refine ⟨⟨fun _ _ => none, fun _ _ => none, s⟩, r, hs', ?_⟩
    rw [hfit]
    dsimp only
    rw [hsP, hl, hL]
    rfl

/-- C116 for `fit(…, method="flow")`, if there is a clustering without a region of more than
`n_areas - n_regions` areas. -/
theorem c116_fit_flow (hs : Spec.Symmetric adj) (hp : 0 < p) (hpn : p ≤ n)
    (hd : ∀ i j, i < j → 0 ≤ columnD metric attr i j) {L₀ : Labels n} (h₀ : Feasible adj L₀ p.toNat)
    (hz : ∀ c, ((univ.filter fun i => L₀ i = c).card : Int) ≤ n - p) (r : Rng) (L : Labels n) :
    (∃ s : Solvers n, Correct s.flow ∧ exactFit adj attr p .flow s metric r = .ok (arrayList L)) ↔
      (Feasible adj L p.toNat ∧ (∀ c, ((univ.filter fun i => L i = c).card : Int) ≤ n - p) ∧
        ∀ L' : Labels n, Feasible adj L' p.toNat →
          (∀ c, ((univ.filter fun i => L' i = c).card : Int) ≤ n - p) →
          withinPairs L (columnD metric attr) ≤ withinPairs L' (columnD metric attr)) ∧
        Named p.toNat L := by
  have hpp : ((p.toNat : Nat) : Int) = p := Int.toNat_of_nonneg hp.le
  obtain ⟨P, hP⟩ := (c48_flow_builds (adj := adj) (d := columnD metric attr) (p := p.toNat)
    (by omega)).2 hs
  have key := c116_flow hs (by omega) hd hP L
  rw [hpp] at key
  rw [← key]
  constructor
  · rintro ⟨s, hc, hfit⟩
    rw [exactFit_flow hp hpn hP, Res.ok.injEq] at hfit
    exact ⟨_, hc P (c49_flow_solvable (by omega) hP h₀ (by rw [hpp]; exact hz)), arrayList_inj hfit⟩
  · rintro ⟨vals, hv, hL⟩
    obtain ⟨s, hs', hsP⟩ := exists_correct hv
    refine ⟨⟨s, fun _ _ => none, fun _ _ => none⟩, hs', ?_⟩
    rw [exactFit_flow hp hpn hP, ← hL]
    dsimp only
    rw [hsP]

/-- C116: the order and the tree method can return the same clusterings. -/
theorem c116_agree (hs : Spec.Symmetric adj) (hp : 0 < p) (h2 : p + 2 ≤ n)
    (hd : ∀ i j, i < j → 0 ≤ columnD metric attr i j) {L₀ : Labels n} (h₀ : Feasible adj L₀ p.toNat)
    (r : Rng) (L : Labels n) :
    (∃ s : Solvers n, Correct s.order ∧ exactFit adj attr p .order s metric r = .ok (arrayList L)) ↔
      ∃ (s : Solvers n) (r : Rng), Correct s.tree ∧
        exactFit adj attr p .tree s metric r = .ok (arrayList L) := by
  rw [c116_fit_order hs hp h2 hd h₀ r, c116_fit_tree hs hp h2 hd h₀]

theorem optimum_comp {d : Fin n → Fin n → ℚ} (hsym : ∀ i j, d i j = d j i) (k : Nat)
    (e : Equiv.Perm (Fin n)) {L : Labels n} (h : Optimum adj d k L) :
    Optimum (fun a b => adj (e a) (e b)) (fun a b => d (e a) (e b)) k (L ∘ e) := by
  have hw : ∀ M : Labels n, withinPairs (M ∘ e) (fun a b => d (e a) (e b)) = withinPairs M d := by
    intro M
    have := dissimilarity_comp e d M
    rw [dissimilarity_fin hsym, dissimilarity_fin fun a b => hsym _ _] at this
    linarith
  have hn : ∀ M : Labels n, numRegions (M ∘ e) = numRegions M := by
    intro M
    unfold numRegions
    congr 1
    ext c
    simp only [mem_image, mem_univ, true_and, Function.comp]
    exact ⟨fun ⟨i, hi⟩ => ⟨e i, hi⟩, fun ⟨i, hi⟩ => ⟨e.symm i, by simpa using hi⟩⟩
  refine ⟨⟨(allContiguous_comp e adj L).2 h.1.1, (hn L).trans h.1.2⟩, fun L' hL' => ?_⟩
  have e1 : L' = (L' ∘ e.symm) ∘ e := by funext i; simp
  rw [e1] at hL' ⊢
  rw [hw, hw]
  exact h.2 _ ⟨(allContiguous_comp e adj _).1 hL'.1, (hn _).symm.trans hL'.2⟩

/-- C116: which name goes to which region is up to the solver. -/
theorem c116_names (hs : Spec.Symmetric adj) (hp : 0 < p) (h2 : p + 2 ≤ n)
    (hd : ∀ i j, i < j → 0 ≤ columnD metric attr i j) {L₀ : Labels n} (h₀ : Feasible adj L₀ p.toNat)
    (r : Rng) {L M : Labels n} (hM : Named p.toNat M) (h : ∀ i j, M i = M j ↔ L i = L j)
    (hL : ∃ s : Solvers n, Correct s.order ∧ exactFit adj attr p .order s metric r = .ok (arrayList L)) :
    ∃ s : Solvers n, Correct s.order ∧ exactFit adj attr p .order s metric r = .ok (arrayList M) := by
  rw [c116_fit_order hs hp h2 hd h₀] at hL ⊢
  obtain ⟨⟨h1, h3⟩, -⟩ := hL
  refine ⟨⟨⟨allContiguous_congr h h1.1, (numRegions_congr h).trans h1.2⟩, fun L' hL' => ?_⟩, hM⟩
  rw [withinPairs_congr h]
  exact h3 L' hL'

/-- C116: numbering the areas differently does not change what the order method can return. -/
theorem c116_renumber (hs : Spec.Symmetric adj) (hp : 0 < p) (h2 : p + 2 ≤ n)
    (hd : ∀ i j, i ≠ j → 0 ≤ columnD metric attr i j)
    (hsym : ∀ i j, columnD metric attr i j = columnD metric attr j i) {L₀ : Labels n}
    (h₀ : Feasible adj L₀ p.toNat) (e : Equiv.Perm (Fin n)) (r : Rng) (L : Labels n) :
    (∃ s : Solvers n, Correct s.order ∧
      exactFit (fun a b => adj (e a) (e b)) (attr ∘ e) p .order s metric r = .ok (arrayList (L ∘ e))) ↔
    ∃ s : Solvers n, Correct s.order ∧ exactFit adj attr p .order s metric r = .ok (arrayList L) := by
  have hcol : columnD metric (attr ∘ e) = fun a b => columnD metric attr (e a) (e b) := rfl
  have hn : numRegions (L₀ ∘ e) = numRegions L₀ := by
    unfold numRegions
    congr 1
    ext c
    simp only [mem_image, mem_univ, true_and, Function.comp]
    exact ⟨fun ⟨i, hi⟩ => ⟨e i, hi⟩, fun ⟨i, hi⟩ => ⟨e.symm i, by simpa using hi⟩⟩
  rw [c116_fit_order (fun a b => hs _ _) hp h2 (by
      intro i j hij
      rw [hcol]
      exact hd _ _ fun h => hij.ne (e.injective h))
    (L₀ := L₀ ∘ e) ⟨(allContiguous_comp e adj L₀).2 h₀.1, hn.trans h₀.2⟩ r,
    c116_fit_order hs hp h2 (fun i j hij => hd i j hij.ne) h₀ r, hcol]
  constructor
  · rintro ⟨h1, h3⟩
    have := optimum_comp (adj := fun a b => adj (e a) (e b)) (fun i j => hsym _ _) p.toNat e.symm h1
    simp only [Equiv.apply_symm_apply] at this
    have e1 : (L ∘ e) ∘ e.symm = L := by funext i; simp
    rw [e1] at this
    exact ⟨this, fun i => by simpa using h3 (e.symm i)⟩
  · rintro ⟨h1, h3⟩
    exact ⟨optimum_comp hsym p.toNat e h1, fun i => h3 (e i)⟩

end

/-! ### The max-p-regions problem -/

section
variable {n : Nat} {adj : Adj n} {d : Fin n → Fin n → ℚ} {quota : Quota n}

/-- Specification: a clustering into contiguous regions meeting the threshold such that no other has
more regions, or as many and a smaller sum of the dissimilarities within regions. -/
def MaxPOptimum (adj : Adj n) (d : Fin n → Fin n → ℚ) (quota : Quota n) (L : Labels n) : Prop :=
  AllContiguous adj L ∧ QuotaMet L quota ∧ ∀ L' : Labels n, AllContiguous adj L' → QuotaMet L' quota →
    numRegions L' ≤ numRegions L ∧
      (numRegions L' = numRegions L → withinPairs L d ≤ withinPairs L' d)

/-- C116: the labels that can be read off optimal solutions of the max-p model are the optima with names
below the number of areas in which the first area has name 0. -/
theorem c116_maxp (hs : Spec.Symmetric adj) (hq : NumberOrArray quota) (hd : ∀ i j, i < j → 0 ≤ d i j)
    {P : Lp (OrderVar n)} (hP : maxpLp adj d quota = .ok P) (L : Labels n) :
    (∃ vals, P.Solved vals ∧ maxpDecode vals = L) ↔
      MaxPOptimum adj d quota L ∧ Named n L ∧ ∀ i : Fin n, i.val = 0 → L i = 0 := by
  obtain ⟨w, cols, hw, hc, hPe⟩ := maxpLp_ok_iff.1 hP
  constructor
  · rintro ⟨vals, hv, rfl⟩
    have hopt := fun L' : Labels n => c57_optimal hs hq hd hP hv (L := L')
    obtain ⟨a, ha, hr⟩ := hv
    obtain ⟨h1, h3, -⟩ := c56_sound hq hP ha.1 hr
    have hsol := (maxp_feasible_iff hc hP).1 ha.1
    have hD := hsol.decode (maxp_reads hP hr)
    refine ⟨⟨h1, h3, hopt⟩, fun i => ?_, fun i hi => ?_⟩
    · obtain ⟨k, o, hk, ho, h, -⟩ := hD i
      rw [h]
      omega
    · exact (hD.eq_iff i (k := 0) i.pos).2 ⟨0, i.pos, by simpa using hsol.first i hi 0 i.pos⟩
  · rintro ⟨⟨hL, hm, hopt⟩, hr, h0⟩
    have hN : ∀ i, L i = ((L i).toNat : Int) := fun i => (Int.toNat_of_nonneg (hr i).1).symm
    have hiff : ∀ i j, (L i).toNat = (L j).toNat ↔ L i = L j := fun i j => by
      have := hN i; have := hN j; omega
    obtain ⟨a, ha, hO, ht⟩ := maxp_representable (cols := cols) (L := fun i => (L i).toNat) hs
      (allContiguous_congr hiff hL) (fun i => by have := hr i; omega)
      (fun i hi => by rw [h0 i hi]; rfl)
      ((quotaMet_iff hq hc).1 ((quotaMet_congr hiff).2 hm))
    have hOL : OrderLabels n n (fun i k o => a (.x i k o)) L := by
      simpa only [← hN] using hO
    have hdec : maxpDecode (fun v => some (a v : ℚ)) = L := by
      have hD := ha.decode (maxp_reads hP (reads_self P a))
      funext i
      obtain ⟨k, o, hk, ho, hi, hx, -⟩ := hOL i
      rw [hi]
      exact (hD.eq_iff i hk).2 ⟨o, ho, hx⟩
    refine ⟨fun v => some (a v : ℚ), ⟨a, ⟨(maxp_feasible_iff hc hP).2 ha, fun b hb => ?_⟩, fun _ _ => rfl⟩,
      hdec⟩
    have hsol := (maxp_feasible_iff hc hP).1 hb
    have hD := hsol.decode (maxp_reads hP (reads_self P b))
    obtain ⟨h1, h3, -⟩ := c56_sound hq hP hb (reads_self P b)
    obtain ⟨h4, h5⟩ := hopt _ h1 h3
    have hnn : ∀ M : Labels n, 0 ≤ withinPairs M d ∧ withinPairs M d < w := by
      intro M
      constructor
      · rw [withinPairs_eq]
        refine sum_nonneg fun e he => ?_
        have := hd e.1 e.2 (by simpa using he)
        split_ifs <;> simp [this]
      · refine lt_of_le_of_lt ?_ (lt_weight hw)
        rw [withinPairs_eq]
        refine sum_le_sum fun e he => ?_
        have := hd e.1 e.2 (by simpa using he)
        split_ifs <;> simp [this]
    have h6 := withinPairs_le (maxpDecode fun v => some (b v : ℚ)) hd (fun i j => b (.t i j))
      (fun i j hij => (hsol.t01 i j hij).1) (fun i j hij heq => hsol.t_ge hD hij heq)
    rw [hPe, eval_maxpObjective, eval_maxpObjective, hsol.roots hD, ha.roots hOL,
      sum_indicator (fun i => (L i).toNat) (fun i j => a (.t i j)) ht, withinPairs_congr hiff]
    obtain ⟨h7, h8⟩ := hnn L
    obtain ⟨h9, h10⟩ := hnn (maxpDecode fun v => some (b v : ℚ))
    push_cast
    rcases Nat.lt_or_eq_of_le h4 with hlt | heq
    · have h11 : ((numRegions (maxpDecode fun v => some (b v : ℚ)) : ℕ) : ℚ) + 1 ≤ (numRegions L : ℕ) := by
        exact_mod_cast hlt
      have h12 := mul_le_mul_of_nonneg_left h11 (h7.trans h8.le)
      rw [mul_add, mul_one] at h12
      linarith
    · rw [heq]
      have := h5 heq
      linarith

/-- C116: what `MaxPRegionsExact.fit` can return with solvers that work, if there are clusterings to be
found and the areas are not all alike. -/
theorem c116_fit_maxp {m : Nat} {attr : Fin n → Row m} {metric : Metric} (hs : Spec.Symmetric adj)
    (hq : NumberOrArray quota) (hlen : ∃ cols, quota.cols = .ok cols)
    (hm : ∀ i j, i < j → 0 ≤ metric m (attr i) (attr j))
    (hpos : ∃ i j, i < j ∧ metric m (attr i) (attr j) ≠ 0)
    {L₀ : Labels n} (hL₀ : AllContiguous adj L₀) (hm₀ : QuotaMet L₀ quota) (L : Labels n) :
    (∃ s : Solver (OrderVar n), Correct s ∧ maxpExactFit adj attr quota s metric = .ok L) ↔
      MaxPOptimum adj (fun i j => metric m (attr i) (attr j)) quota L ∧ Named n L ∧
        ∀ i : Fin n, i.val = 0 → L i = 0 := by
  obtain ⟨cols, hc⟩ := hlen
  obtain ⟨i, j, hij, hne⟩ := hpos
  have hsum : ¬ ((upperTriangle n).map fun e => metric m (attr e.1) (attr e.2)).sum ≤ 0 := by
    rw [sum_upperTriangle (fun e => metric m (attr e.1) (attr e.2)), not_le]
    refine sum_pos' (fun e he => hm _ _ (by simpa using he)) ⟨(i, j), by simpa using hij, ?_⟩
    exact lt_of_le_of_ne (hm i j hij) (Ne.symm hne)
  have hw : ∃ w, maxpWeight (fun i j => metric m (attr i) (attr j)) = .ok w := by
    unfold maxpWeight
    dsimp only
    rw [if_neg hsum]
    exact ⟨_, rfl⟩
  obtain ⟨w, hw⟩ := hw
  have hP := (maxpLp_ok_iff (adj := adj)).2 ⟨w, cols, hw, hc, rfl⟩
  rw [← c116_maxp hs hq hm hP]
  have hfit : ∀ s : Solver (OrderVar n), maxpExactFit adj attr quota s metric =
      .ok (maxpDecode (s _)) := fun s => by
    unfold maxpExactFit
    rw [hP]
    rfl
  constructor
  · rintro ⟨s, hcor, h⟩
    rw [hfit, Res.ok.injEq] at h
    exact ⟨_, hcor _ (c56_solvable hs hq hP hL₀ hm₀), h⟩
  · rintro ⟨vals, hv, hL⟩
    obtain ⟨s, hs', hsP⟩ := exists_correct hv
    exact ⟨s, hs', by rw [hfit, hsP, hL]⟩

end

/-! ### Concrete cases -/

/-- The hypotheses of C116 hold for two regions on the path of four areas. -/
example : Spec.Symmetric path4 ∧ (∀ i j : Fin 4, i < j → 0 ≤ columnD manhattanM (ramp 4) i j) ∧
    Feasible path4 (![0, 0, 1, 1] : Labels 4) 2 ∧ Named 2 (![0, 0, 1, 1] : Labels 4) ∧
    ∀ c, ((univ.filter fun i => (![0, 0, 1, 1] : Labels 4) i = c).card : Int) ≤ (4 : Nat) - (2 : Int) := by
  refine ⟨path4_symm, by decide +kernel, path4_feasible2, by unfold Named; decide +kernel, fun c => ?_⟩
  by_cases h : c = 0 ∨ c = 1
  · rcases h with rfl | rfl <;> decide +kernel
  · have : (univ.filter fun i => (![0, 0, 1, 1] : Labels 4) i = c) = ∅ := by
      refine filter_eq_empty_iff.2 fun i _ hi => h ?_
      fin_cases i <;> simp at hi <;> omega
    rw [this]; decide

/-- C116: the labels depend on the solver: there are two working solvers for which `fit` returns
different labels. -/
theorem c116_solver_matters : ∃ (s s' : Solvers 4) (L M : Labels 4), Correct s.order ∧ Correct s'.order ∧
    exactFit path4 (ramp 4) 2 .order s manhattanM (fun _ => 0) = .ok (arrayList L) ∧
    exactFit path4 (ramp 4) 2 .order s' manhattanM (fun _ => 0) = .ok (arrayList M) ∧ L ≠ M := by
  have hd : ∀ i j : Fin 4, i < j → 0 ≤ columnD manhattanM (ramp 4) i j := by decide +kernel
  obtain ⟨P, hP⟩ := (c50_order_builds (adj := path4) (d := columnD manhattanM (ramp 4)) (p := 2)
    (by omega) (by omega)).2 (by omega)
  obtain ⟨a, ha⟩ := c51_order_solvable path4_symm (by omega) (by omega) hP path4_feasible2
  obtain ⟨s, hs, -⟩ := exists_correct (P := P) ⟨a, ha, reads_self P a⟩
  have key := c116_fit_order (metric := manhattanM) (attr := ramp 4) (p := 2) path4_symm (by omega)
    (by omega) hd path4_feasible2 (fun _ => 0)
  set S : Solvers 4 := ⟨fun _ _ => none, s, fun _ _ => none⟩
  have h1 := exactFit_order (metric := manhattanM) (attr := ramp 4) (p := 2) (s := S) (r := fun _ => 0)
    (by omega) (by omega) hP
  set L := orderDecode (2 : Int).toNat (S.order P)
  obtain ⟨-, hn⟩ := (key L).1 ⟨S, hs, h1⟩
  obtain ⟨s', hs', h3⟩ := c116_names (metric := manhattanM) (attr := ramp 4) (p := 2) path4_symm (by omega)
    (by omega) hd path4_feasible2 (fun _ => 0) (L := L) (M := fun i => 1 - L i)
    (fun i => by have := hn i; dsimp only; omega)
    (fun i j => by omega) ⟨S, hs, h1⟩
  refine ⟨S, s', L, _, hs, hs', h1, h3, fun h => ?_⟩
  have := congrFun h 0
  omega

/-- The hypotheses of `c116_fit_maxp` hold on the path, too. -/
example : NumberOrArray pathQuota ∧ (∃ cols, pathQuota.cols = .ok cols) ∧
    (∃ i j : Fin 4, i < j ∧ manhattanM 1 (ramp 4 i) (ramp 4 j) ≠ 0) ∧
    AllContiguous path4 (![0, 0, 1, 1] : Labels 4) ∧ QuotaMet (![0, 0, 1, 1] : Labels 4) pathQuota :=
  ⟨trivial, ⟨_, rfl⟩, by decide +kernel, path4_cont, path4_quota⟩

end Region.Props
