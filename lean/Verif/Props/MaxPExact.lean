import Verif.Lemmas.MaxPExact
import Verif.Props.PRegionsExact
import Verif.Props.MaxPHeu
/-
Property theorems C56-C58 and C72: the exact method for the max-p-regions problem.
-/
namespace Region.Props

open Region Spec Finset

/-- The regions meet the threshold in every column of the spatially extensive attributes. -/
def QuotaMet {n : Nat} {κ : Type} [DecidableEq κ] (labels : Fin n → κ) : Quota n → Prop
  | .scalar s thr => MeetsThreshold labels (fun v (_ : Unit) => s v) fun _ => thr
  | .rowsReal s thr => MeetsThreshold labels s fun _ => thr
  | .rowsArray s thr => MeetsThreshold labels s fun j => thr.getD j 0
  | .rowsOther s thr => MeetsThreshold labels s fun j => thr.getD j 0

/-- The threshold is a number or an array. -/
def NumberOrArray {n : Nat} : Quota n → Prop
  | .rowsOther _ _ => False
  | _ => True

section
variable {n : Nat} {adj : Adj n} {d : Fin n → Fin n → ℚ} {quota : Quota n}

theorem quotaMet_iff {κ : Type} [DecidableEq κ] {labels : Fin n → κ} (hq : NumberOrArray quota)
    {cols : List ((Fin n → ℚ) × ℚ)} (hc : quota.cols = .ok cols) : QuotaMet labels quota ↔
      ∀ c ∈ cols, ∀ v, c.2 ≤ ∑ u ∈ univ.filter (fun u => labels u = labels v), c.1 u := by
  cases quota with
  | scalar s thr =>
    simp only [Quota.cols, Res.ok.injEq] at hc
    subst hc
    simp [QuotaMet, MeetsThreshold]
  | rowsReal s thr =>
    simp only [Quota.cols, Res.ok.injEq] at hc
    subst hc
    simp only [QuotaMet, MeetsThreshold, List.mem_map, List.mem_finRange, true_and,
      forall_exists_index, forall_apply_eq_imp_iff]
    exact forall_comm
  | rowsArray s thr =>
    simp only [Quota.cols] at hc
    split_ifs at hc
    simp only [Res.ok.injEq] at hc
    subst hc
    simp only [QuotaMet, MeetsThreshold, List.mem_map, List.mem_finRange, true_and,
      forall_exists_index, forall_apply_eq_imp_iff]
    exact forall_comm
  | rowsOther s thr => exact absurd hq (by simp [NumberOrArray])

theorem quotaMet_congr {κ ι : Type} [DecidableEq κ] [DecidableEq ι] {L : Fin n → κ} {N : Fin n → ι}
    (h : ∀ i j, N i = N j ↔ L i = L j) : QuotaMet N quota ↔ QuotaMet L quota := by
  cases quota <;> simp only [QuotaMet, MeetsThreshold, h]

theorem maxp_reads {P : Lp (OrderVar n)} {a : OrderVar n → ℤ} {vals : OrderVar n → Option ℚ}
    (hP : maxpLp adj d quota = .ok P) (hv : P.Reads a vals) :
    ∀ i k o, k < n → o < n → vals (.x i k o) = some (a (.x i k o) : ℚ) := by
  intro i k o hk ho
  obtain ⟨w, cols, -, -, rfl⟩ := maxpLp_ok_iff.1 hP
  refine hv ⟨.x i k o, 0, some 1⟩ ?_
  simp only [maxpDecls, List.mem_append, List.mem_flatMap, List.mem_map, List.mem_finRange,
    List.mem_range, true_and]
  exact .inr ⟨i, k, hk, o, ho, rfl⟩

/-! ### C56 -/

/-- C56: whatever the values found for the variables: if they satisfy the constraints, the labels read
off are contiguous regions, each meeting the threshold, and there are as many of them as areas that are
roots of a region in the solution. -/
theorem c56_sound (hq : NumberOrArray quota) {P : Lp (OrderVar n)} (hP : maxpLp adj d quota = .ok P)
    {a : OrderVar n → ℤ} (ha : P.Feasible a) {vals : OrderVar n → Option ℚ} (hv : P.Reads a vals) :
    AllContiguous adj (maxpDecode vals) ∧ QuotaMet (maxpDecode vals) quota ∧
      (numRegions (maxpDecode vals) : ℤ) = ∑ k ∈ range n, ∑ i, a (.x i k 0) := by
  obtain ⟨w, cols, -, hc, -⟩ := maxpLp_ok_iff.1 hP
  have hsol := (maxp_feasible_iff hc hP).1 ha
  have hL := hsol.decode (maxp_reads hP hv)
  exact ⟨hsol.orderX.allContiguous hL, (quotaMet_iff hq hc).2 (hsol.meets hL), (hsol.roots hL).symm⟩

/-- C56: every clustering into contiguous regions meeting the threshold is, up to the names of the
regions, read off a solution with as many roots as it has regions. -/
theorem c56_representable (hs : Spec.Symmetric adj) (hq : NumberOrArray quota) {P : Lp (OrderVar n)}
    (hP : maxpLp adj d quota = .ok P) {κ : Type} [DecidableEq κ] {L : Fin n → κ}
    (hL : AllContiguous adj L) (hm : QuotaMet L quota) :
    ∃ a, P.Feasible a ∧ ∑ k ∈ range n, ∑ i, a (.x i k 0) = (numRegions L : ℤ) ∧
      ∀ vals, P.Reads a vals → ∀ i j, maxpDecode vals i = maxpDecode vals j ↔ L i = L j := by
  obtain ⟨w, cols, -, hc, -⟩ := maxpLp_ok_iff.1 hP
  obtain ⟨N, hlt, h0, hiff⟩ := exists_first_numbering L
  obtain ⟨a, ha, hO, -⟩ := maxp_representable (cols := cols) hs (allContiguous_congr hiff hL) hlt h0
    ((quotaMet_iff hq hc).1 ((quotaMet_congr hiff).2 hm))
  have hcast : ∀ i j, ((N i : Nat) : Int) = ((N j : Nat) : Int) ↔ L i = L j := fun i j => by
    rw [← hiff]; exact Int.natCast_inj
  refine ⟨a, (maxp_feasible_iff hc hP).2 ha, ?_, fun vals hv i j => ?_⟩
  · rw [ha.roots hO, numRegions_congr hcast]
  · have hD := ha.decode (maxp_reads hP hv)
    have : ∀ i, maxpDecode vals i = (N i : Int) := by
      intro i
      obtain ⟨k, o, hk, ho, hi, hx, -⟩ := hO i
      have hk' : N i = k := Int.natCast_inj.1 hi
      subst hk'
      exact (hD.eq_iff i hk).2 ⟨o, ho, hx⟩
    rw [this, this]
    exact hcast i j

/-- If there is a clustering to be found there is an optimal solution. -/
theorem c56_solvable (hs : Spec.Symmetric adj) (hq : NumberOrArray quota) {P : Lp (OrderVar n)}
    (hP : maxpLp adj d quota = .ok P) {κ : Type} [DecidableEq κ] {L : Fin n → κ}
    (hL : AllContiguous adj L) (hm : QuotaMet L quota) : ∃ a, P.Optimal a := by
  obtain ⟨a, ha, -⟩ := c56_representable hs hq hP hL hm
  refine exists_optimal_01 ?_ ⟨a, ha⟩
  obtain ⟨w, cols, -, hc, rfl⟩ := maxpLp_ok_iff.1 hP
  intro v hv
  simp only [maxpObjective, Lin.vars_add, Lin.vars_mul, Lin.vars_sum, List.mem_append,
    List.mem_flatMap, List.mem_map, List.mem_range] at hv
  refine ⟨_, ?_, rfl⟩
  simp only [maxpDecls, List.mem_append, List.mem_flatMap, List.mem_map, List.mem_finRange,
    List.mem_range, true_and]
  rcases hv with ⟨_, ⟨k, hk, i, -, rfl⟩, hv⟩ | ⟨_, ⟨e, he, rfl⟩, hv⟩
  · obtain rfl := List.mem_singleton.1 hv
    exact .inr ⟨i, k, hk, 0, i.pos, rfl⟩
  · rw [Lin.vars_mul] at hv
    obtain rfl := List.mem_singleton.1 hv
    exact .inl ⟨e, he, rfl⟩

/-! ### C57 -/

/-- C57: the labels read off an optimal solution have the largest number of regions among all
clusterings into contiguous regions meeting the threshold, and among those with this number the smallest
sum of the dissimilarities within regions. -/
theorem c57_optimal (hs : Spec.Symmetric adj) (hq : NumberOrArray quota)
    (hd : ∀ i j, i < j → 0 ≤ d i j) {P : Lp (OrderVar n)} (hP : maxpLp adj d quota = .ok P)
    {vals : OrderVar n → Option ℚ} (hv : P.Solved vals) {κ : Type} [DecidableEq κ] {L : Fin n → κ}
    (hL : AllContiguous adj L) (hm : QuotaMet L quota) :
    numRegions L ≤ numRegions (maxpDecode vals) ∧
      (numRegions L = numRegions (maxpDecode vals) →
        withinPairs (maxpDecode vals) d ≤ withinPairs L d) := by
  obtain ⟨a, ⟨ha, hopt⟩, hvals⟩ := hv
  obtain ⟨w, cols, hw, hc, hPe⟩ := maxpLp_ok_iff.1 hP
  have hsol := (maxp_feasible_iff hc hP).1 ha
  have hD := hsol.decode (maxp_reads hP hvals)
  obtain ⟨N, hlt, h0, hiff⟩ := exists_first_numbering L
  obtain ⟨b, hb, hO, ht⟩ := maxp_representable (cols := cols) hs (allContiguous_congr hiff hL) hlt h0
    ((quotaMet_iff hq hc).1 ((quotaMet_congr hiff).2 hm))
  have hcast : ∀ i j, ((N i : Nat) : Int) = ((N j : Nat) : Int) ↔ L i = L j := fun i j => by
    rw [← hiff]; exact Int.natCast_inj
  have h1 := hopt b ((maxp_feasible_iff hc hP).2 hb)
  rw [hPe, eval_maxpObjective, eval_maxpObjective, hsol.roots hD, hb.roots hO, numRegions_congr hcast]
    at h1
  have h2 : withinPairs (maxpDecode vals) d ≤ ∑ e ∈ univ.filter (fun e : Fin n × Fin n => e.1 < e.2),
      d e.1 e.2 * (a (.t e.1 e.2) : ℚ) :=
    withinPairs_le _ hd (fun i j => a (.t i j)) (fun i j hij => (hsol.t01 i j hij).1)
      (fun i j hij heq => hsol.t_ge hD hij heq)
  have h3 : ∑ e ∈ univ.filter (fun e : Fin n × Fin n => e.1 < e.2),
      d e.1 e.2 * (b (.t e.1 e.2) : ℚ) = withinPairs L d := by
    rw [← withinPairs_congr hiff d, withinPairs_eq N]
    refine sum_congr rfl fun e _ => ?_
    rw [ht]
    split_ifs <;> simp
  have h4 : withinPairs L d < w := by
    refine lt_of_le_of_lt ?_ (lt_weight hw)
    rw [withinPairs_eq]
    refine sum_le_sum fun e he => ?_
    have := hd e.1 e.2 (by simpa using he)
    split_ifs <;> simp [this]
  have h5 : 0 ≤ withinPairs (maxpDecode vals) d := by
    rw [withinPairs_eq]
    refine sum_nonneg fun e he => ?_
    have := hd e.1 e.2 (by simpa using he)
    split_ifs <;> simp [this]
  have h6 : 0 ≤ withinPairs L d := by
    rw [withinPairs_eq]
    refine sum_nonneg fun e he => ?_
    have := hd e.1 e.2 (by simpa using he)
    split_ifs <;> simp [this]
  have hw0 : 0 < w := lt_of_le_of_lt h6 h4
  push_cast at h1
  constructor
  · by_contra hlt'
    push Not at hlt'
    have h7 : ((numRegions (maxpDecode vals) : ℕ) : ℚ) + 1 ≤ (numRegions L : ℕ) := by exact_mod_cast hlt'
    have h8 := mul_le_mul_of_nonneg_left h7 hw0.le
    rw [mul_add, mul_one] at h8
    linarith
  · intro heq
    rw [heq] at h1
    linarith

/-- C57 for `fit`: if the solver works and there is a clustering into contiguous regions meeting the
threshold, `labels_` is one, and no other has more regions or as many and a smaller objective. -/
theorem c57_fit {m : Nat} {attr : Fin n → Row m} {metric : Metric} (hs : Spec.Symmetric adj)
    (hq : NumberOrArray quota) (hlen : ∃ cols, quota.cols = .ok cols)
    (hm : ∀ i j, i < j → 0 ≤ metric m (attr i) (attr j))
    (hpos : ∃ i j, i < j ∧ metric m (attr i) (attr j) ≠ 0)
    {L₀ : Labels n} (hL₀ : AllContiguous adj L₀) (hm₀ : QuotaMet L₀ quota)
    {s : Solver (OrderVar n)} (hcor : Correct s) :
    ∃ L : Labels n, maxpExactFit adj attr quota s metric = .ok L ∧ AllContiguous adj L ∧
      QuotaMet L quota ∧ ∀ L' : Labels n, AllContiguous adj L' → QuotaMet L' quota →
        numRegions L' ≤ numRegions L ∧ (numRegions L' = numRegions L →
          (pairwise (metric m)).call L attr ≤ (pairwise (metric m)).call L' attr) := by
  obtain ⟨cols, hc⟩ := hlen
  obtain ⟨i, j, hij, hne⟩ := hpos
  have hsum : ¬ ((upperTriangle n).map fun e => metric m (attr e.1) (attr e.2)).sum ≤ 0 := by
    rw [sum_upperTriangle (fun e => metric m (attr e.1) (attr e.2)), not_le]
    refine sum_pos' (fun e he => hm _ _ (by simpa using he)) ⟨(i, j), by simpa using hij, ?_⟩
    exact lt_of_le_of_ne (hm i j hij) (Ne.symm hne)
  have hw : ∃ w, maxpWeight (fun i j => metric m (attr i) (attr j)) = .ok w := by
    unfold maxpWeight
    dsimp only
    rw [if_neg hsum]
    exact ⟨_, rfl⟩
  obtain ⟨w, hw⟩ := hw
  have hP := (maxpLp_ok_iff (adj := adj)).2 ⟨w, cols, hw, hc, rfl⟩
  have hsol := hcor _ (c56_solvable hs hq hP hL₀ hm₀)
  obtain ⟨a, ha, hv⟩ := hsol
  have h1 := c56_sound hq hP ha.1 hv
  refine ⟨_, ?_, h1.1, h1.2.1, fun L' hL' hm' => ?_⟩
  · unfold maxpExactFit
    rw [hP]
    rfl
  · rw [c18_pairwise, c18_pairwise]
    exact c57_optimal hs hq hm hP ⟨a, ha, hv⟩ hL' hm'

/-! ### C58 -/

/-- C58 (part): `fit` returns labels, whatever the solver does, if not all areas are alike and there is
a threshold for every column.  Missing: areas that are all alike, see `c58_all_alike`. -/
theorem c58_returns_partial {m : Nat} {attr : Fin n → Row m} {metric : Metric}
    (hlen : ∃ cols, quota.cols = .ok cols)
    (hm : ∀ i j, i < j → 0 ≤ metric m (attr i) (attr j))
    (hpos : ∃ i j, i < j ∧ metric m (attr i) (attr j) ≠ 0) (s : Solver (OrderVar n)) :
    ∃ L : Labels n, maxpExactFit adj attr quota s metric = .ok L := by
  obtain ⟨cols, hc⟩ := hlen
  obtain ⟨i, j, hij, hne⟩ := hpos
  have hsum : ¬ ((upperTriangle n).map fun e => metric m (attr e.1) (attr e.2)).sum ≤ 0 := by
    rw [sum_upperTriangle (fun e => metric m (attr e.1) (attr e.2)), not_le]
    refine sum_pos' (fun e he => hm _ _ (by simpa using he)) ⟨(i, j), by simpa using hij, ?_⟩
    exact lt_of_le_of_ne (hm i j hij) (Ne.symm hne)
  have hw : ∃ w, maxpWeight (fun i j => metric m (attr i) (attr j)) = .ok w := by
    unfold maxpWeight
    dsimp only
    rw [if_neg hsum]
    exact ⟨_, rfl⟩
  obtain ⟨w, hw⟩ := hw
  have hP := (maxpLp_ok_iff (adj := adj)).2 ⟨w, cols, hw, hc, rfl⟩
  unfold maxpExactFit
  rw [hP]
  exact ⟨_, rfl⟩

/-- C58 is false: if all areas are alike (in particular if there is only one) `fit` raises
`ValueError` because the logarithm of zero is taken. -/
theorem c58_all_alike {m : Nat} {attr : Fin n → Row m} {metric : Metric}
    (h : ∀ i j, i < j → metric m (attr i) (attr j) = 0) (s : Solver (OrderVar n)) :
    maxpExactFit adj attr quota s metric = .raise (.valueError "math domain error") := by
  have hsum : ((upperTriangle n).map fun e => metric m (attr e.1) (attr e.2)).sum ≤ 0 := by
    rw [sum_upperTriangle (fun e => metric m (attr e.1) (attr e.2)),
      sum_eq_zero fun e he => h _ _ (by simpa using he)]
  unfold maxpExactFit maxpLp maxpWeight
  dsimp only
  rw [if_pos hsum]
  rfl

end

/-- One area. -/
theorem c58_single_area (quota : Quota 1) (s : Solver (OrderVar 1)) :
    maxpExactFit (fun _ _ => false) (ramp 1) quota s manhattanM =
      .raise (.valueError "math domain error") :=
  c58_all_alike (fun i j hij => by omega) s

/-! ### Concrete cases -/

/-- A path of four areas with attributes 0, 10, 11, 12, one inhabitant each, at least two in a region. -/
def pathQuota : Quota 4 := .scalar (fun _ => 1) 2

theorem path4_quota : QuotaMet (![0, 0, 1, 1] : Labels 4) pathQuota := by
  intro v j
  have : ∀ v : Fin 4, (2 : ℚ) ≤ ∑ u ∈ univ.filter
      (fun u => (![0, 0, 1, 1] : Labels 4) u = (![0, 0, 1, 1] : Labels 4) v), 1 := by decide +kernel
  exact this v

/-- The hypotheses of C56, C57 and C58 hold for it. -/
example : Spec.Symmetric path4 ∧ NumberOrArray pathQuota ∧ (∃ cols, pathQuota.cols = .ok cols) ∧
    (∀ i j : Fin 4, i < j →
      0 ≤ manhattanM 1 (column ![0, 10, 11, 12] i) (column ![0, 10, 11, 12] j)) ∧
    (∃ i j : Fin 4, i < j ∧
      manhattanM 1 (column ![0, 10, 11, 12] i) (column ![0, 10, 11, 12] j) ≠ 0) ∧
    AllContiguous path4 (![0, 0, 1, 1] : Labels 4) ∧ QuotaMet (![0, 0, 1, 1] : Labels 4) pathQuota :=
  ⟨path4_symm, trivial, ⟨_, rfl⟩, by decide +kernel, by decide +kernel, path4_cont, path4_quota⟩

/-- The weight for it is 100: the dissimilarities add up to 37. -/
example : maxpWeight (gap ![0, 10, 11, 12]) = .ok 100 := by
  have h : ((upperTriangle 4).map fun e => gap ![0, 10, 11, 12] e.1 e.2).sum = 37 := by decide +kernel
  unfold maxpWeight
  simp only [h]
  rw [if_neg (by norm_num), show Int.log 10 (37 : ℚ) = 1 by
    rw [show (37 : ℚ) = ((37 : ℕ) : ℚ) by norm_num, Int.log_natCast]; decide +kernel]
  norm_num

/-- Its model is built and has an optimal solution. -/
example : ∃ P, maxpLp path4 (gap ![0, 10, 11, 12]) pathQuota = .ok P ∧ ∃ a, P.Optimal a := by
  have hw : ∃ w, maxpWeight (gap ![0, 10, 11, 12]) = .ok w := by
    have h : ((upperTriangle 4).map fun e => gap ![0, 10, 11, 12] e.1 e.2).sum = 37 := by decide +kernel
    unfold maxpWeight
    simp only [h]
    rw [if_neg (by norm_num)]
    exact ⟨_, rfl⟩
  obtain ⟨w, hw⟩ := hw
  have hP := (maxpLp_ok_iff (adj := path4) (quota := pathQuota)).2 ⟨w, _, hw, rfl, rfl⟩
  exact ⟨_, hP, c56_solvable (quota := pathQuota) path4_symm trivial hP path4_cont path4_quota⟩

/-- The hypothesis on the threshold is needed: a list of thresholds is ignored without complaint, and
all areas become regions of their own. -/
theorem c56_list_ignored {n : Nat} {adj : Adj n} {d : Fin n → Fin n → ℚ} (hs : Spec.Symmetric adj)
    (hd : ∀ i j, i < j → 0 ≤ d i j) {q : Nat} (s : Fin n → Row q) (thr : List ℚ) {P : Lp (OrderVar n)}
    (hP : maxpLp adj d (.rowsOther s thr) = .ok P) {vals : OrderVar n → Option ℚ} (hv : P.Solved vals) :
    numRegions (maxpDecode vals) = n := by
  have hP' : maxpLp adj d (.rowsReal (q := 0) (fun _ => ![]) 0) = .ok P := by
    obtain ⟨w, cols, hw, hc, hPe⟩ := maxpLp_ok_iff.1 hP
    simp only [Quota.cols, Res.ok.injEq] at hc
    subst hc
    exact maxpLp_ok_iff.2 ⟨w, [], hw, rfl, hPe⟩
  have h1 := (c57_optimal hs (quota := .rowsReal (q := 0) (fun _ => ![]) 0) trivial hd hP' hv
    (L := (id : Fin n → Fin n)) (fun v => by
      refine ⟨⟨v, rfl⟩, fun x hx y hy => ?_⟩
      have hx' : x = v := hx
      have hy' : y = v := hy
      rw [hx', hy']
      exact Relation.ReflTransGen.refl) (fun v j => j.elim0)).1
  refine le_antisymm ?_ ?_
  · unfold numRegions
    exact card_image_le.trans (by simp)
  · refine le_trans (le_of_eq ?_) h1
    unfold numRegions
    rw [image_id, card_univ, Fintype.card_fin]

/-! ### C72 -/

/-- C72 is false: a threshold that no clustering meets is not reported.  The model has no solution; if
the solver leaves the variables without values, all areas are put into one region. -/
theorem c72_unreachable_threshold : (∀ L : Labels 4, ¬ QuotaMet L (.scalar (fun _ => 1) 5)) ∧
    (∀ P, maxpLp path4 (gap ![0, 10, 11, 12]) (.scalar (fun _ => 1) 5) = .ok P →
      ∀ a, ¬ P.Feasible a) ∧
    maxpExactFit path4 (column ![0, 10, 11, 12]) (.scalar (fun _ => 1) 5) (fun _ _ => none)
      manhattanM = .ok fun _ => 0 := by
  have hno : ∀ L : Labels 4, ¬ QuotaMet L (.scalar (fun _ => 1) 5) := by
    intro L h
    have h1 := h 0 ()
    rw [sum_const, nsmul_eq_mul, mul_one] at h1
    have h2 : (univ.filter fun u => L u = L 0).card ≤ 4 := (card_le_univ _).trans (by simp)
    have h3 : ((univ.filter fun u => L u = L 0).card : ℚ) ≤ 4 := by exact_mod_cast h2
    linarith
  refine ⟨hno, fun P hP a ha => hno _ (c56_sound (quota := .scalar (fun _ => 1) 5) trivial hP ha (reads_self P a)).2.1, ?_⟩
  obtain ⟨L, hL⟩ := c58_returns_partial (adj := path4) (quota := .scalar (fun _ => 1) 5)
    (attr := column ![0, 10, 11, 12]) (metric := manhattanM) ⟨_, rfl⟩ (by decide +kernel)
    (by decide +kernel) fun _ _ => none
  have h0 : ∀ l : List (Nat × Nat), l.foldl
      (fun r (k : Nat × Nat) => if (none : Option ℚ) = some 1 then (k.1 : Int) else r) 0 = 0 := by
    intro l
    induction l with
    | nil => rfl
    | cons x xs ih => simp
  rw [hL]
  unfold maxpExactFit at hL
  obtain ⟨P, -, h⟩ := Res.bind_eq_ok.1 hL
  rw [← h, Res.ok.injEq]
  funext i
  exact h0 _

end Region.Props
