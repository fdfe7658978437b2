import Verif.Lemmas.Rounding
import Verif.Props.PRegionsExact
import Verif.Props.MaxPExact
import Mathlib.Algebra.Order.Round
/-
Property theorems C115: solvers that return values close to integers.
-/
namespace Region.Props

open Region Spec Finset

/-- Specification: the values of the variables of a problem are numbers that differ from the integers
`a` by at most `ε` (the integrality tolerance of a solver). -/
def NearValues {V : Type} (P : Lp V) (ε : ℚ) (a : V → ℤ) (vals : V → Option ℚ) : Prop :=
  ∀ d ∈ P.decls, ∃ v, vals d.var = some v ∧ |v - a d.var| ≤ ε

/-- Values without rounding errors. -/
theorem nearValues_zero {V : Type} {P : Lp V} {a : V → ℤ} {vals : V → Option ℚ} :
    NearValues P 0 a vals ↔ P.Reads a vals := by
  refine forall₂_congr fun d _ => ?_
  constructor
  · rintro ⟨v, h1, h2⟩
    rw [h1, sub_eq_zero.1 (abs_nonpos_iff.1 h2)]
  · intro h
    exact ⟨_, h, by simp⟩

theorem NearValues.ne_one {V : Type} {P : Lp V} {ε : ℚ} (hε : ε < 1) {a : V → ℤ} {vals : V → Option ℚ}
    (h : NearValues P ε a vals) {d : Decl V} (hd : d ∈ P.decls) (h0 : a d.var = 0) :
    vals d.var ≠ some 1 := by
  obtain ⟨v, h1, h2⟩ := h d hd
  intro h3
  rw [h1, Option.some.injEq] at h3
  subst h3
  rw [h0] at h2
  norm_num at h2
  linarith

/-- Values below the integers by a bit. -/
theorem nearValues_below {V : Type} (P : Lp V) {ε : ℚ} (hε : 0 ≤ ε) (a : V → ℤ) :
    NearValues P ε a fun v => some (a v - min ε (1 / 2)) := by
  intro d _
  refine ⟨_, rfl, ?_⟩
  have h0 : 0 ≤ min ε (1 / 2) := le_min hε (by norm_num)
  have : (a d.var : ℚ) - min ε (1 / 2) - a d.var = - min ε (1 / 2) := by ring
  rw [this, abs_neg, abs_of_nonneg h0]
  exact min_le_left _ _

theorem below_ne_one {ε : ℚ} (hε : 0 < ε) (z : ℤ) : (z : ℚ) - min ε (1 / 2) ≠ 1 := by
  intro h
  have h1 : 0 < min ε (1 / 2) := lt_min hε (by norm_num)
  have h2 : min ε (1 / 2 : ℚ) ≤ 1 / 2 := min_le_right _ _
  have h3 : (1 : ℚ) < z := by linarith
  have h4 : (z : ℚ) < 2 := by linarith
  have h3' : (1 : ℤ) < z := by exact_mod_cast h3
  have h4' : z < (2 : ℤ) := by exact_mod_cast h4
  omega

/-- C115: rounding the values before reading them would make all of C48–C58 apply to a solver with a
tolerance below one half. -/
theorem c115_round {V : Type} {P : Lp V} {ε : ℚ} (hε : ε < 1 / 2) {a : V → ℤ} {vals : V → Option ℚ}
    (h : NearValues P ε a vals) : P.Reads a fun v => (vals v).map fun q => (round q : ℚ) := by
  intro d hd
  obtain ⟨v, h1, h2⟩ := h d hd
  simp only [h1, Option.map_some, Option.some.injEq]
  have h3 : |v - (a d.var : ℚ)| < 1 / 2 := lt_of_le_of_lt h2 hε
  rw [abs_lt] at h3
  congr 1
  rw [round_eq, Int.floor_eq_iff]
  constructor <;> linarith

section
variable {n : Nat} {adj : Adj n} {d : Fin n → Fin n → ℚ} {p : Nat} {ε : ℚ}

/-! ### The flow model -/

theorem flow_decl (i : Fin n) {k : Nat} (hk : k < p) :
    (⟨.y i k, 0, some 1⟩ : Decl (FlowVar n)) ∈ flowDecls adj p := by
  simp only [flowDecls, List.mem_append, List.mem_flatMap, List.mem_map, List.mem_finRange,
    List.mem_range, true_and]
  exact .inl (.inr ⟨i, k, hk, rfl⟩)

/-- C115: what the flow method makes of values near a solution.  An area gets its region if the value
of the variable saying so is exactly 1, and 0 otherwise. -/
theorem c115_flow_labels (hε : ε < 1) {P : Lp (FlowVar n)} (hP : flowLp adj d p = .ok P)
    {a : FlowVar n → ℤ} (ha : P.Feasible a) {vals : FlowVar n → Option ℚ}
    (hv : NearValues P ε a vals) (i : Fin n) {k : Nat} (hk : k < p) (h1 : a (.y i k) = 1) :
    flowDecode p vals i = if vals (.y i k) = some 1 then (k : Int) else 0 := by
  refine ((flow_feasible_iff hP).1 ha).flowDecode_any (fun i k hk h0 => ?_) i k hk h1
  rw [flowLp_eq hP] at hv
  exact hv.ne_one hε (flow_decl i hk) h0

/-- C115 (part): the labels are those of the solution exactly if every value is 1 that puts an area into
a region other than the first.  Missing: the other values within the tolerance, see
`c115_flow_lost`. -/
theorem c115_flow_partial (hε : ε < 1) {P : Lp (FlowVar n)} (hP : flowLp adj d p = .ok P)
    {a : FlowVar n → ℤ} (ha : P.Feasible a) {vals : FlowVar n → Option ℚ}
    (hv : NearValues P ε a vals) :
    flowDecode p vals = flowDecode p (fun v => some (a v : ℚ)) ↔
      ∀ i k, 0 < k → k < p → a (.y i k) = 1 → vals (.y i k) = some 1 := by
  have hexact := nearValues_zero.2 (reads_self P a)
  constructor
  · intro h i k h0 hk h1
    have e := congrFun h i
    rw [c115_flow_labels hε hP ha hv i hk h1, c115_flow_labels zero_lt_one hP ha hexact i hk h1,
      if_pos (c := some ((a (FlowVar.y i k) : ℤ) : ℚ) = some 1) (by simp [h1])] at e
    by_contra hne
    rw [if_neg hne] at e
    omega
  · intro h
    funext i
    obtain ⟨k, hk, h1, -⟩ := ((flow_feasible_iff hP).1 ha).region i
    rw [c115_flow_labels hε hP ha hv i hk h1, c115_flow_labels zero_lt_one hP ha hexact i hk h1,
      if_pos (c := some ((a (FlowVar.y i k) : ℤ) : ℚ) = some 1) (by simp [h1])]
    rcases Nat.eq_zero_or_pos k with rfl | h0
    · split <;> rfl
    · rw [if_pos (h i k h0 hk h1)]

/-- C115 is false: however small the tolerance, for every solution there are values within it that
make the flow method put all areas into one region. -/
theorem c115_flow_lost (hε : 0 < ε) (P : Lp (FlowVar n)) (a : FlowVar n → ℤ) :
    ∃ vals, NearValues P ε a vals ∧ flowDecode p vals = fun _ => 0 := by
  refine ⟨_, nearValues_below P hε.le a, ?_⟩
  funext i
  unfold flowDecode
  simp only [Option.some.injEq, below_ne_one hε, if_false]
  induction List.range p with
  | nil => rfl
  | cons k l ih => exact ih

/-! ### The order model -/

theorem order_decl (i : Fin n) {k o : Nat} (hk : k < p) (ho : o < n - p) :
    (⟨.x i k o, 0, some 1⟩ : Decl (OrderVar n)) ∈ orderDecls p := by
  simp only [orderDecls, List.mem_append, List.mem_flatMap, List.mem_map, List.mem_finRange,
    List.mem_range, true_and]
  exact .inr ⟨i, k, hk, o, ho, rfl⟩

/-- C115: what the order method makes of values near a solution. -/
theorem c115_order_labels (hε : ε < 1) {P : Lp (OrderVar n)} (hP : orderLp adj d p = .ok P)
    {a : OrderVar n → ℤ} (ha : P.Feasible a) {vals : OrderVar n → Option ℚ}
    (hv : NearValues P ε a vals) (i : Fin n) {k o : Nat} (hk : k < p) (ho : o < n - p)
    (h1 : a (.x i k o) = 1) :
    orderDecode p vals i = if vals (.x i k o) = some 1 then (k : Int) else 0 := by
  refine ((order_feasible_iff hP).1 ha).orderX.decode_any (vals := fun k o => vals (.x i k o))
    (fun k o hk ho h0 => ?_) hk ho h1
  rw [orderLp_eq hP] at hv
  exact hv.ne_one hε (order_decl i hk ho) h0

/-- C115 (part): as `c115_flow_partial` for the order method. -/
theorem c115_order_partial (hε : ε < 1) {P : Lp (OrderVar n)} (hP : orderLp adj d p = .ok P)
    {a : OrderVar n → ℤ} (ha : P.Feasible a) {vals : OrderVar n → Option ℚ}
    (hv : NearValues P ε a vals) :
    orderDecode p vals = orderDecode p (fun v => some (a v : ℚ)) ↔
      ∀ i k o, 0 < k → k < p → o < n - p → a (.x i k o) = 1 → vals (.x i k o) = some 1 := by
  have hexact := nearValues_zero.2 (reads_self P a)
  constructor
  · intro h i k o h0 hk ho h1
    have e := congrFun h i
    rw [c115_order_labels hε hP ha hv i hk ho h1, c115_order_labels zero_lt_one hP ha hexact i hk ho h1,
      if_pos (c := some ((a (OrderVar.x i k o) : ℤ) : ℚ) = some 1) (by simp [h1])] at e
    by_contra hne
    rw [if_neg hne] at e
    omega
  · intro h
    funext i
    obtain ⟨k, o, hk, ho, h1, -⟩ := ((order_feasible_iff hP).1 ha).orderX.place i
    rw [c115_order_labels hε hP ha hv i hk ho h1, c115_order_labels zero_lt_one hP ha hexact i hk ho h1,
      if_pos (c := some ((a (OrderVar.x i k o) : ℤ) : ℚ) = some 1) (by simp [h1])]
    rcases Nat.eq_zero_or_pos k with rfl | h0
    · split <;> rfl
    · rw [if_pos (h i k o h0 hk ho h1)]

theorem foldl_below (hε : 0 < ε) (a : Nat × Nat → ℤ) (l : List (Nat × Nat)) :
    l.foldl (fun (r : Int) ko => if some ((a ko : ℚ) - min ε (1 / 2)) = some 1 then (ko.1 : Int) else r) 0 =
      0 := by
  simp only [Option.some.injEq, below_ne_one hε, if_false]
  induction l with
  | nil => rfl
  | cons k l ih => exact ih

/-- C115 is false for the order method. -/
theorem c115_order_lost (hε : 0 < ε) (P : Lp (OrderVar n)) (a : OrderVar n → ℤ) :
    ∃ vals, NearValues P ε a vals ∧ orderDecode p vals = fun _ => 0 :=
  ⟨_, nearValues_below P hε.le a, funext fun i =>
    foldl_below hε (fun ko => a (.x i ko.1 ko.2)) _⟩

/-! ### The tree model -/

/-- C115 (part): the tree method reads the same labels off if the values of all pairs of areas that share
a region are exactly 1.  Missing: the other values within the tolerance, see `c115_tree_lost`. -/
theorem c115_tree_partial (hε : ε < 1) {P : Lp (TreeVar n)} (hP : treeLp adj d p = .ok P)
    {a : TreeVar n → ℤ} (ha : P.Feasible a) {vals : TreeVar n → Option ℚ}
    (hv : NearValues P ε a vals)
    (h : ∀ i j, i ≠ j → a (.t i j) = 1 → vals (.t i j) = some 1) (r : Rng) :
    treeDecode p vals r = treeDecode p (fun v => some (a v : ℚ)) r := by
  have hsol := (tree_feasible_iff hP).1 ha
  have key : ∀ i j, i ≠ j → (vals (.t i j) = some 1 ↔ some (a (.t i j) : ℚ) = some 1) := by
    intro i j hij
    rcases hsol.t01 i j with ⟨h0, h1⟩
    rcases (by omega : a (.t i j) = 0 ∨ a (.t i j) = 1) with h2 | h2
    · refine ⟨fun h3 => absurd h3 ?_, fun h3 => by simp [h2] at h3⟩
      rw [treeLp_ok, Res.ok.injEq] at hP
      subst hP
      refine hv.ne_one hε (d := ⟨.t i j, 0, some 1⟩) ?_ h2
      simp only [treeDecls, List.mem_append, List.mem_map]
      exact .inl (.inl ⟨(i, j), mem_allPairs _, rfl⟩)
    · exact ⟨fun _ => by simp [h2], fun _ => h i j hij h2⟩
  unfold treeDecode
  rw [treeRegions_congr (vals' := fun v => some (a v : ℚ)) key p _ (List.nodup_finRange n)]

/-- C115 (part), sharpened: if the solution itself can be read off, the tree method reads the same labels off for
every order in which areas are taken exactly if the values of all pairs of areas that share a region are
exactly 1. -/
theorem c115_tree_exactly (h2 : p + 2 ≤ n ∨ (Spec.Symmetric adj ∧ (∀ i, adj i i = false) ∧ 0 < n)) (hε : ε < 1)
    {P : Lp (TreeVar n)} (hP : treeLp adj d p = .ok P) {a : TreeVar n → ℤ} (ha : P.Feasible a)
    {vals : TreeVar n → Option ℚ} (hv : NearValues P ε a vals)
    (hok : ∃ r l, treeDecode p (fun v => some (a v : ℚ)) r = .ok l) :
    (∀ r, treeDecode p vals r = treeDecode p (fun v => some (a v : ℚ)) r) ↔
      ∀ i j, i ≠ j → a (.t i j) = 1 → vals (.t i j) = some 1 := by
  constructor
  · intro h i j hij hone
    by_contra hne
    obtain ⟨r0, l0, h0⟩ := hok
    have hreads := reads_self P a
    obtain ⟨f, hf, hcase⟩ := c52_tree_sound h2 hP ha hreads r0
    have hnum : numRegions f = p := by
      rcases hcase with ⟨h1, -⟩ | ⟨-, h1⟩
      · exact h1
      · rw [h0] at h1; cases h1
    have hp : 0 < p := by
      rw [← hnum]
      exact Finset.card_pos.2 ⟨f i, by simp⟩
    obtain ⟨f', hf', hcase'⟩ := c52_tree_sound h2 hP ha hreads fun _ => i.val
    have hnum' : numRegions f' = p := by
      rw [← hnum]
      exact numRegions_congr fun x y => by rw [hf, hf']
    rcases hcase' with ⟨-, l, h3, h4, h5, -⟩ | ⟨h3, -⟩
    · refine treeDecode_apart hij hne hp (r := fun _ => i.val) rfl (l := l) ((h _).trans h3) h4 ?_
      rw [h5, hf']
      exact .inr hone
    · omega
  · exact fun h r => c115_tree_partial hε hP ha hv h r

example : ∃ P a vals, treeLp path4 (gap ![0, 1, 10, 11]) 2 = .ok P ∧ P.Feasible a ∧
    NearValues P (1 / 1000000) a vals ∧ (∃ r l, treeDecode 2 (fun v => some (a v : ℚ)) r = .ok l) ∧
    ∀ i j, i ≠ j → a (.t i j) = 1 → vals (.t i j) = some 1 := by
  obtain ⟨P, hP⟩ := c52_tree_builds (adj := path4) (d := gap ![0, 1, 10, 11]) (p := 2)
  obtain ⟨a, ha, h⟩ := c53_tree_representable_partial (adj := path4) (d := gap ![0, 1, 10, 11]) (p := 2) path4_symm
    (by omega) hP (L := (![0, 0, 1, 1] : Labels 4)) ⟨path4_cont, by decide +kernel⟩
  obtain ⟨l, hl, -⟩ := h _ (reads_self P a) (fun _ => 0)
  exact ⟨P, a, fun v => some (a v), hP, ha, fun d _ => ⟨_, rfl, by simp⟩, ⟨_, l, hl⟩, fun i j _ h => by simp [h]⟩

/-- C115 is false for the tree method: however small the tolerance, for every solution there are values
within it for which the array of labels, if there is one, has only `n_regions` entries. -/
theorem c115_tree_lost (hε : 0 < ε) (P : Lp (TreeVar n)) (a : TreeVar n → ℤ) :
    ∃ vals, NearValues P ε a vals ∧ ∀ r l, treeDecode p vals r = .ok l → l.length = p := by
  refine ⟨_, nearValues_below P hε.le a, fun r l hl => treeDecode_none (fun i j => ?_) hl⟩
  simp only [ne_eq, Option.some.injEq]
  exact below_ne_one hε _

/-! ### The max-p-regions problem -/

variable {quota : Quota n}

/-- C115: what `MaxPRegionsExact` makes of values near a solution. -/
theorem c115_maxp_labels (hε : ε < 1) {P : Lp (OrderVar n)} (hP : maxpLp adj d quota = .ok P)
    {a : OrderVar n → ℤ} (ha : P.Feasible a) {vals : OrderVar n → Option ℚ}
    (hv : NearValues P ε a vals) (i : Fin n) {k o : Nat} (hk : k < n) (ho : o < n)
    (h1 : a (.x i k o) = 1) :
    maxpDecode vals i = if vals (.x i k o) = some 1 then (k : Int) else 0 := by
  obtain ⟨w, cols, -, hc, hPe⟩ := maxpLp_ok_iff.1 hP
  refine ((maxp_feasible_iff hc hP).1 ha).orderX.decode_any (vals := fun k o => vals (.x i k o))
    (fun k o hk ho h0 => ?_) hk ho h1
  subst hPe
  refine hv.ne_one hε (d := ⟨.x i k o, 0, some 1⟩) ?_ h0
  simp only [maxpDecls, List.mem_append, List.mem_flatMap, List.mem_map, List.mem_finRange,
    List.mem_range, true_and]
  exact .inr ⟨i, k, hk, o, ho, rfl⟩

/-- C115 (part): as `c115_flow_partial` for the max-p-regions problem. -/
theorem c115_maxp_partial (hε : ε < 1) {P : Lp (OrderVar n)} (hP : maxpLp adj d quota = .ok P)
    {a : OrderVar n → ℤ} (ha : P.Feasible a) {vals : OrderVar n → Option ℚ}
    (hv : NearValues P ε a vals) :
    maxpDecode vals = maxpDecode (fun v => some (a v : ℚ)) ↔
      ∀ i k o, 0 < k → k < n → o < n → a (.x i k o) = 1 → vals (.x i k o) = some 1 := by
  have hexact := nearValues_zero.2 (reads_self P a)
  obtain ⟨w, cols, -, hc, -⟩ := maxpLp_ok_iff.1 hP
  constructor
  · intro h i k o h0 hk ho h1
    have e := congrFun h i
    rw [c115_maxp_labels hε hP ha hv i hk ho h1, c115_maxp_labels zero_lt_one hP ha hexact i hk ho h1,
      if_pos (c := some ((a (OrderVar.x i k o) : ℤ) : ℚ) = some 1) (by simp [h1])] at e
    by_contra hne
    rw [if_neg hne] at e
    omega
  · intro h
    funext i
    obtain ⟨k, o, hk, ho, h1, -⟩ := ((maxp_feasible_iff hc hP).1 ha).orderX.place i
    rw [c115_maxp_labels hε hP ha hv i hk ho h1, c115_maxp_labels zero_lt_one hP ha hexact i hk ho h1,
      if_pos (c := some ((a (OrderVar.x i k o) : ℤ) : ℚ) = some 1) (by simp [h1])]
    rcases Nat.eq_zero_or_pos k with rfl | h0
    · split <;> rfl
    · rw [if_pos (h i k o h0 hk ho h1)]

/-- C115 is false for the max-p-regions problem. -/
theorem c115_maxp_lost (hε : 0 < ε) (P : Lp (OrderVar n)) (a : OrderVar n → ℤ) :
    ∃ vals, NearValues P ε a vals ∧ maxpDecode vals = fun _ => 0 :=
  ⟨_, nearValues_below P hε.le a, funext fun i =>
    foldl_below hε (fun ko => a (.x i ko.1 ko.2)) _⟩

end

/-! ### Concrete cases -/

/-- A solver with a tolerance of a millionth for two regions on the path of four areas: there is an
optimal solution, and values within the tolerance for which `fit` returns one region with the flow
method and an array of two labels with the tree method. -/
theorem c115_witness :
    (∃ P a vals, flowLp path4 (gap ![0, 1, 10, 11]) 2 = .ok P ∧ P.Optimal a ∧
      NearValues P (1 / 1000000) a vals ∧ flowDecode 2 vals = fun _ => 0) ∧
    ∃ P a vals, treeLp path4 (gap ![0, 1, 10, 11]) 2 = .ok P ∧ P.Optimal a ∧
      NearValues P (1 / 1000000) a vals ∧ treeDecode 2 vals (fun _ => 0) = .ok [0, 1] := by
  have hf : Feasible path4 (![0, 0, 1, 1] : Labels 4) 2 := ⟨path4_cont, by decide +kernel⟩
  constructor
  · obtain ⟨P, hP⟩ := (c48_flow_builds (adj := path4) (d := gap ![0, 1, 10, 11]) (p := 2)
      (by omega)).2 path4_symm
    obtain ⟨a, ha⟩ := c49_flow_solvable (by omega) hP hf (by
      intro c
      by_cases h0 : c = 0
      · subst h0; decide +kernel
      · by_cases h1 : c = 1
        · subst h1; decide +kernel
        · rw [filter_false_of_mem]
          · simp
          · intro i _
            fin_cases i <;> simp <;> omega)
    obtain ⟨vals, h1, h2⟩ := c115_flow_lost (p := 2) (ε := 1 / 1000000) (by norm_num) P a
    exact ⟨P, a, vals, hP, ha, h1, h2⟩
  · obtain ⟨P, hP⟩ := c52_tree_builds (adj := path4) (d := gap ![0, 1, 10, 11]) (p := 2)
    obtain ⟨a, ha⟩ := c53_tree_solvable path4_symm (by omega) hP hf
    refine ⟨P, a, _, hP, ha, nearValues_below P (by norm_num) a, ?_⟩
    have hne : ∀ i j : Fin 4, ¬ ((a (.t i j) : ℚ) - min (1 / 1000000) (1 / 2) = 1) :=
      fun i j => below_ne_one (by norm_num) _
    unfold treeDecode treeRegions treeRegions treeRegions
    simp only [Option.some.injEq, hne, decide_false]
    decide +kernel

/-- The hypotheses of the partial theorems hold for the values of an optimal solution themselves. -/
example : ∃ P a vals, orderLp path4 (gap ![0, 1, 10, 11]) 2 = .ok P ∧ P.Feasible a ∧
    NearValues P (1 / 1000000) a vals ∧
    ∀ i k o, 0 < k → k < 2 → o < 2 → a (.x i k o) = 1 → vals (.x i k o) = some 1 := by
  obtain ⟨P, hP⟩ := (c50_order_builds (adj := path4) (d := gap ![0, 1, 10, 11]) (p := 2)
    (by omega) (by omega)).2 (by omega)
  obtain ⟨a, ha⟩ := c51_order_solvable path4_symm (by omega) (by omega) hP
    (L := ![0, 0, 1, 1]) ⟨path4_cont, by decide +kernel⟩
  refine ⟨P, a, fun v => some (a v), hP, ha.1, fun d _ => ⟨_, rfl, by simp⟩, ?_⟩
  intro i k o _ _ _ h
  simp [h]

end Region.Props
