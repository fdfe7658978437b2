import Verif.Props.ExactResults
import Verif.Props.Units
/-
Property theorems C135: the columns of the table of attributes.
-/
namespace Region.Props

open Region Spec Finset

/-! ### The heuristics -/

/-- C135: for the default metric, reordering the columns of the attributes is no change for AZP, the tabu
searches, annealing, the max-p heuristic and SKATER (see C88, with the factor 1). -/
theorem c135_permuted {n m : Nat} (e : Equiv.Perm (Fin m)) (attr : Fin n → Row m) :
    OtherUnits 1 manhattan manhattan attr fun i t => attr i (e t) := by
  refine ⟨one_pos, fun i j => ?_⟩
  unfold manhattan
  rw [← Fin.sum_univ_def, ← Fin.sum_univ_def, one_mul]
  exact Equiv.sum_comp e fun t => |attr i t - attr j t|

/-- C135: nor is adding columns in which all areas have the same value. -/
theorem c135_constant {n m m' : Nat} (b : Row m') (attr : Fin n → Row m) :
    OtherUnits 1 manhattan manhattan attr fun i => Fin.append (attr i) b := by
  refine ⟨one_pos, fun i j => ?_⟩
  unfold manhattan
  rw [← Fin.sum_univ_def, ← Fin.sum_univ_def, Fin.sum_univ_add]
  simp only [Fin.append_left, Fin.append_right, sub_self, abs_zero, sum_const_zero, one_mul, add_zero]

theorem inUnits_one {n q : Nat} (s : Strat n q) : inUnits 1 s = s := by
  induction s with
  | azp => simp [inUnits]
  | sa => simp [inUnits]
  | maxp _ _ _ _ ih => simp [inUnits, ih]

/-- C135 for AZP in full: the same labels or the same exception with the same draws. -/
theorem c135_azp {n m m' q : Nat} (e : Equiv.Perm (Fin m)) (b : Row m') (attr : Fin n → Row m)
    (o : MstOrder) (expf : ℚ → ℚ) (fuel : Nat) (adj : Adj n) (p : Int) (initial : Option (Labels n))
    (st : Strat n q) (r : Rng) :
    labelsOf (azpFit o expf (pairwise manhattan) fuel adj (fun i t => attr i (e t)) p initial st r) =
      labelsOf (azpFit o expf (pairwise manhattan) fuel adj attr p initial st r) ∧
    labelsOf (azpFit o expf (pairwise manhattan) fuel adj (fun i => Fin.append (attr i) b) p initial st
        r) =
      labelsOf (azpFit o expf (pairwise manhattan) fuel adj attr p initial st r) := by
  have h1 := c88_azp (q := q) (c135_permuted e attr) o expf fuel adj p initial st r
  have h2 := c88_azp (q := q) (c135_constant b attr) o expf fuel adj p initial st r
  rw [inUnits_one] at h1 h2
  exact ⟨h1, h2⟩

/-- C135 for the max-p heuristic with AZP in full. -/
theorem c135_maxp {n m m' q : Nat} (e : Equiv.Perm (Fin m)) (b : Row m') (attr : Fin n → Row m)
    (o : MstOrder) (expf : ℚ → ℚ) (fuel : Nat) (adj : Adj n) (spat : Fin n → Fin q → ℚ)
    (thr : Fin q → ℚ) (maxIt : Nat) (st : Strat n q) (r : Rng) :
    maxpOf (maxpFit (azpSearch o expf (pairwise manhattan) fuel adj fun i t => attr i (e t)) manhattan
        (pairwise manhattan) adj (fun i t => attr i (e t)) spat thr maxIt st r) =
      maxpOf (maxpFit (azpSearch o expf (pairwise manhattan) fuel adj attr) manhattan
        (pairwise manhattan) adj attr spat thr maxIt st r) ∧
    maxpOf (maxpFit (azpSearch o expf (pairwise manhattan) fuel adj fun i => Fin.append (attr i) b)
        manhattan (pairwise manhattan) adj (fun i => Fin.append (attr i) b) spat thr maxIt st r) =
      maxpOf (maxpFit (azpSearch o expf (pairwise manhattan) fuel adj attr) manhattan
        (pairwise manhattan) adj attr spat thr maxIt st r) := by
  have h1 := c88_maxp_azp (q := q) (c135_permuted e attr) o expf fuel adj spat thr maxIt st r
  have h2 := c88_maxp_azp (q := q) (c135_constant b attr) o expf fuel adj spat thr maxIt st r
  rw [inUnits_one] at h1 h2
  exact ⟨h1, h2⟩

/-- The mean of some rows, column by column. -/
theorem meanRow_permuted {n m : Nat} (e : Equiv.Perm (Fin m)) (attr : Fin n → Row m)
    (l : List (Fin n)) : meanRow (l.map fun i t => attr i (e t)) =
      fun t => meanRow (l.map attr) (e t) := by
  funext t
  simp [meanRow, List.map_map, Function.comp_def]

theorem meanRow_append {n m m' : Nat} (b : Row m') (attr : Fin n → Row m) {l : List (Fin n)}
    (hl : l ≠ []) : meanRow (l.map fun i => Fin.append (attr i) b) =
      Fin.append (meanRow (l.map attr)) b := by
  have hpos : (l.length : ℚ) ≠ 0 := by simpa using hl
  funext t
  refine Fin.addCases (fun t => ?_) (fun t => ?_) t
  · simp [meanRow, List.map_map, Function.comp_def]
  · simp [meanRow, List.map_map, Function.comp_def]
    field_simp

/-- C135 for SKATER with its default arguments: the same regions, forest and scores. -/
theorem c135_skater {n m m' : Nat} (e : Equiv.Perm (Fin m)) (b : Row m') (data : Fin n → Row m)
    (fuel : Nat) (k : Option Int) (W : Adj n) (quorum : Option ℚ) (trace : Bool)
    (islands : String) :
    Res.Rel (fun x y => y.labels = x.labels ∧ y.forest = x.forest ∧ y.trace = x.trace)
      (Skater.fit stableOrder .default fuel k W (some ⟨m, data⟩) quorum trace islands)
      (Skater.fit stableOrder .default fuel k W (some ⟨m, fun i t => data i (e t)⟩) quorum trace
        islands) ∧
    Res.Rel (fun x y => y.labels = x.labels ∧ y.forest = x.forest ∧ y.trace = x.trace)
      (Skater.fit stableOrder .default fuel k W (some ⟨m, data⟩) quorum trace islands)
      (Skater.fit stableOrder .default fuel k W (some ⟨m + m', fun i => Fin.append (data i) b⟩)
        quorum trace islands) := by
  have hm : ∀ x y : Skater.Outcome n, (y.labels = x.labels ∧ y.forest = x.forest ∧
      y.trace = x.trace.map fun t => (t.1, t.2.map fun e => (e.1, 1 * e.2))) →
      y.labels = x.labels ∧ y.forest = x.forest ∧ y.trace = x.trace := by
    rintro x y ⟨h1, h2, h3⟩
    refine ⟨h1, h2, h3.trans ?_⟩
    simp
  constructor
  · refine Res.Rel.mono (c88_skater (d := fun _ => manhattan) (d' := fun _ => manhattan)
      (center := fun _ => meanRow) (center' := fun _ => meanRow) (c135_permuted e data)
      ⟨one_pos, fun i l hl => ?_⟩ (sum_units _) (stableOrder_units one_pos) fuel k W quorum trace
      islands) fun x y h => hm x y h
    · rw [meanRow_permuted]
      unfold manhattan
      rw [← Fin.sum_univ_def, ← Fin.sum_univ_def, one_mul]
      exact Equiv.sum_comp e fun t => |data i t - meanRow (l.map data) t|
  · refine Res.Rel.mono (c88_skater (d := fun _ => manhattan) (d' := fun _ => manhattan)
      (center := fun _ => meanRow) (center' := fun _ => meanRow) (c135_constant b data)
      ⟨one_pos, fun i l hl => ?_⟩ (sum_units _) (stableOrder_units one_pos) fuel k W quorum trace
      islands) fun x y h => hm x y h
    · rw [meanRow_append b data hl]
      unfold manhattan
      rw [← Fin.sum_univ_def, ← Fin.sum_univ_def, Fin.sum_univ_add]
      simp only [Fin.append_left, Fin.append_right, sub_self, abs_zero, sum_const_zero, one_mul,
        add_zero]

/-- Swapping two columns, and adding one: the same regions, other than the initial ones. -/
example :
    seenLabels ((azpFit .rowMajor (fun _ => 0) (pairwise manhattan) 9 path3
      (![![0, 5], ![9, 5], ![9, 6]] : Fin 3 → Row 2) 2 (some ![0, 0, 1]) (.azp 0 : Strat 3 1)
      fun _ => 0) >>= fun x => .ok (some x.1)) = [0, 1, 1] ∧
    seenLabels ((azpFit .rowMajor (fun _ => 0) (pairwise manhattan) 9 path3
      (![![7, 5, 0], ![7, 5, 9], ![7, 6, 9]] : Fin 3 → Row 3) 2 (some ![0, 0, 1]) (.azp 0 : Strat 3 1)
      fun _ => 0) >>= fun x => .ok (some x.1)) = [0, 1, 1] := by
  decide +kernel

/-! ### The exact methods -/

/-- C135 for exact max-p: exactly the same with any solver. -/
theorem c135_maxp_exact {n m m' : Nat} {adj : Adj n} (e : Equiv.Perm (Fin m)) (b : Row m')
    (attr : Fin n → Row m) (quota : Quota n) (solve : Solver (OrderVar n)) :
    maxpExactFit adj (fun i t => attr i (e t)) quota solve manhattanM =
      maxpExactFit adj attr quota solve manhattanM ∧
    maxpExactFit adj (fun i => Fin.append (attr i) b) quota solve manhattanM =
      maxpExactFit adj attr quota solve manhattanM := by
  have h1 : (fun i j => manhattanM m (fun t => attr i (e t)) fun t => attr j (e t)) =
      fun i j => manhattanM m (attr i) (attr j) :=
    funext fun i => funext fun j => ((c135_permuted e attr).2 i j).trans (one_mul _)
  have h2 : (fun i j => manhattanM (m + m') (Fin.append (attr i) b) (Fin.append (attr j) b)) =
      fun i j => manhattanM m (attr i) (attr j) :=
    funext fun i => funext fun j => ((c135_constant b attr).2 i j).trans (one_mul _)
  unfold maxpExactFit
  rw [h1, h2]
  exact ⟨rfl, rfl⟩

section
variable {n m : Nat} {adj : Adj n}

/-- C135: the exact method does exactly the same if the columns are reordered, whatever the metric, the
method and the solver. -/
theorem c135_exact_permuted (e : Equiv.Perm (Fin m)) (attr : Fin n → Row m) (p : Int) (method : Method)
    (s : Solvers n) (metric : Metric) (r : Rng) :
    exactFit adj (fun i t => attr i (e t)) p method s metric r =
      exactFit adj attr p method s metric r := by
  have h : columnD metric (fun i t => attr i (e t)) = columnD metric attr := by
    funext i j
    rw [c55_formula, c55_formula]
    rw [← Equiv.sum_comp e fun a => ∑ b, metric 1 (fun _ => attr i a) (fun _ => attr j b)]
    refine sum_congr rfl fun a _ => ?_
    exact Equiv.sum_comp e fun b => metric 1 (fun _ => attr i (e a)) (fun _ => attr j b)
  unfold exactFit
  rw [h]

theorem withinPairs_scale {c : ℚ} {d d' : Fin n → Fin n → ℚ} (h : ∀ i j, d' i j = c * d i j)
    (L : Labels n) : withinPairs L d' = c * withinPairs L d := by
  unfold withinPairs
  rw [mul_sum]
  exact sum_congr rfl fun e _ => h _ _

theorem columnD_affine (c b : ℚ) (attr : Fin n → Row m) (i j : Fin n) :
    columnD manhattanM (fun i t => c * attr i t + b) i j = |c| * columnD manhattanM attr i j := by
  rw [c55_formula, c55_formula, mul_sum]
  refine sum_congr rfl fun x _ => ?_
  rw [mul_sum]
  refine sum_congr rfl fun y _ => ?_
  exact manhattan_affine c (fun _ => b) _ _

theorem columnD_nonneg (attr : Fin n → Row m) (i j : Fin n) : 0 ≤ columnD manhattanM attr i j := by
  rw [c55_formula]
  refine sum_nonneg fun _ _ => sum_nonneg fun _ _ => ?_
  refine List.sum_nonneg fun x hx => ?_
  obtain ⟨_, _, rfl⟩ := List.mem_map.1 hx
  exact abs_nonneg _

/-- C135 (only for the same constant in all columns): multiplying all numbers by a constant other than 0
and adding one constant to all of them does not change what the three exact methods can return with
solvers that work.  Missing: another constant for every column, see `c135_exact_constant`. -/
theorem c135_exact_shift_partial (hs : Spec.Symmetric adj) {p : Int} (hp : 0 < p) (h2 : p + 2 ≤ n)
    {c : ℚ} (hc : c ≠ 0) (b : ℚ) (attr : Fin n → Row m) {L₀ : Labels n}
    (h₀ : Feasible adj L₀ p.toNat) (r : Rng) (L : Labels n) :
    ((∃ s : Solvers n, Correct s.order ∧
        exactFit adj (fun i t => c * attr i t + b) p .order s manhattanM r = .ok (arrayList L)) ↔
      ∃ s : Solvers n, Correct s.order ∧
        exactFit adj attr p .order s manhattanM r = .ok (arrayList L)) ∧
    ((∃ (s : Solvers n) (r : Rng), Correct s.tree ∧
        exactFit adj (fun i t => c * attr i t + b) p .tree s manhattanM r = .ok (arrayList L)) ↔
      ∃ (s : Solvers n) (r : Rng), Correct s.tree ∧
        exactFit adj attr p .tree s manhattanM r = .ok (arrayList L)) ∧
    ((∀ c, ((univ.filter fun i => L₀ i = c).card : Int) ≤ n - p) →
      ((∃ s : Solvers n, Correct s.flow ∧
          exactFit adj (fun i t => c * attr i t + b) p .flow s manhattanM r = .ok (arrayList L)) ↔
        ∃ s : Solvers n, Correct s.flow ∧
          exactFit adj attr p .flow s manhattanM r = .ok (arrayList L))) := by
  have hw : ∀ M M' : Labels n, withinPairs M (columnD manhattanM fun i t => c * attr i t + b) ≤
      withinPairs M' (columnD manhattanM fun i t => c * attr i t + b) ↔
      withinPairs M (columnD manhattanM attr) ≤ withinPairs M' (columnD manhattanM attr) := by
    intro M M'
    rw [withinPairs_scale (columnD_affine c b attr), withinPairs_scale (columnD_affine c b attr),
      mul_le_mul_iff_right₀ (abs_pos.2 hc)]
  have h0 := fun i j (_ : i < j) => columnD_nonneg attr i j
  have h0' := fun i j (_ : i < j) => columnD_nonneg (fun i t => c * attr i t + b) i j
  refine ⟨?_, ?_, fun hz => ?_⟩
  · rw [c116_fit_order hs hp h2 h0 h₀, c116_fit_order hs hp h2 h0' h₀]
    simp only [Optimum, hw]
  · rw [c116_fit_tree hs hp h2 h0 h₀, c116_fit_tree hs hp h2 h0' h₀]
    simp only [Optimum, hw]
  · rw [c116_fit_flow hs hp (by omega) h0 h₀ hz, c116_fit_flow hs hp (by omega) h0' h₀ hz]
    simp only [hw]

end

example : Spec.Symmetric path4 ∧ (0 : Int) < 2 ∧ (2 : Int) + 2 ≤ (4 : Nat) ∧ (-3 : ℚ) ≠ 0 ∧
    Feasible path4 (![0, 0, 1, 1] : Labels 4) (2 : Int).toNat :=
  ⟨path4_symm, by decide, by decide, by norm_num, path4_feasible2⟩

/-- The attributes 0, 0, 0, 9 and a second column with the constant `b`. -/
def withConstant (b : ℚ) : Fin 4 → Row 2 := ![![0, b], ![0, b], ![0, b], ![9, b]]

/-- C135 is false for the exact method: a column in which all areas have the same value decides about the
clustering.  On the path, with any solvers that work, the constant 0 gives the regions `0, 1, 2 | 3`, the
constant 100 the regions `0, 1 | 2, 3`. -/
theorem c135_exact_constant {s : Solvers 4} (hc : Correct s.order) (r : Rng) :
    (∃ L : Labels 4, exactFit path4 (withConstant 0) 2 .order s manhattanM r = .ok (arrayList L) ∧
      ∀ i j, L i = L j ↔ (i = 3 ↔ j = 3)) ∧
    ∃ L : Labels 4, exactFit path4 (withConstant 100) 2 .order s manhattanM r = .ok (arrayList L) ∧
      ∀ i j, L i = L j ↔ (i < 2 ↔ j < 2) := by
  have main : ∀ (attr : Fin 4 → Row 2) (good : Fin 4 → Bool) (best : Labels 4),
      Feasible path4 best 2 →
      (∀ M : Fin 4 → Fin 2,
        assertFeasible (fun i => ((M i).val : Int)) path4 (some 2) = .ok () → withinPairs M (columnD manhattanM attr) ≤
          withinPairs best (columnD manhattanM attr) → ∀ i j, M i = M j ↔ good i = good j) →
      ∃ L : Labels 4, exactFit path4 attr 2 .order s manhattanM r = .ok (arrayList L) ∧
        ∀ i j, L i = L j ↔ good i = good j := by
    intro attr good best hb key
    obtain ⟨P, hP⟩ := (c50_order_builds (adj := path4) (d := columnD manhattanM attr) (p := 2)
      (by omega) (by omega)).2 (by omega)
    obtain ⟨a, ha, hv⟩ := hc P (c51_order_solvable path4_symm (by omega) (by omega) hP path4_feasible2)
    have h1 := c50_order_sound (by omega) hP ha.1 hv
    refine ⟨_, exactFit_order (p := 2) (by omega) (by omega) hP, ?_⟩
    obtain ⟨N, hN, hlt, -⟩ := exists_nat_labels h1.2 h1.1.2
    have hM : ∀ i j, (⟨N i, hlt i⟩ : Fin 2) = ⟨N j, hlt j⟩ ↔
        orderDecode 2 (s.order P) i = orderDecode 2 (s.order P) j := by
      intro i j; rw [hN, hN, Fin.mk.injEq]; omega
    have h2 := key (fun i => ⟨N i, hlt i⟩) (by
      have e : (fun i => ((⟨N i, hlt i⟩ : Fin 2).val : Int)) = orderDecode 2 (s.order P) :=
        funext fun i => (hN i).symm
      rw [e]
      refine (c04_assert_feasible_ok _ _ _).2 ⟨h1.1.1, fun k hk => ?_⟩
      cases hk
      exact_mod_cast h1.1.2) (by
      rw [withinPairs_congr hM]
      exact c54_order_optimal path4_symm (by omega) (by omega)
        (fun i j _ => columnD_nonneg attr i j) hP ⟨a, ha, hv⟩ hb)
    intro i j
    rw [← h2 i j, hM]
    rfl
  have hb : Feasible path4 (![0, 0, 0, 1] : Labels 4) 2 := by
    have := (c04_assert_feasible_ok (![0, 0, 0, 1] : Labels 4) path4 (some 2)).1 (by decide +kernel)
    exact ⟨this.1, by have := this.2 2 rfl; exact_mod_cast this⟩
  constructor
  · obtain ⟨L, h1, h2⟩ := main (withConstant 0) (fun i => decide (i = 3)) ![0, 0, 0, 1] hb
      (by decide +kernel)
    exact ⟨L, h1, fun i j => (h2 i j).trans decide_eq_decide⟩
  · obtain ⟨L, h1, h2⟩ := main (withConstant 100) (fun i => decide (i < 2)) ![0, 0, 1, 1]
      path4_feasible2 (by decide +kernel)
    exact ⟨L, h1, fun i j => (h2 i j).trans decide_eq_decide⟩

end Region.Props
