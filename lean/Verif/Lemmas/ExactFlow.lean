import Verif.Lemmas.Bfs
import Verif.Lemmas.Lp
/-
The integer program of `_flow`: its solutions and the clusterings they stand for.
-/
namespace Region

open Spec Finset

/-- The constraints of the flow model over the integers. -/
structure FlowSol {n : Nat} (adj : Adj n) (p : Nat) (a : FlowVar n → ℤ) : Prop where
  t01 : ∀ i j, i < j → 0 ≤ a (.t i j) ∧ a (.t i j) ≤ 1
  f0 : ∀ i j k, adj i j = true → k < p → 0 ≤ a (.f i j k)
  y01 : ∀ i k, k < p → 0 ≤ a (.y i k) ∧ a (.y i k) ≤ 1
  w01 : ∀ i k, k < p → 0 ≤ a (.w i k) ∧ a (.w i k) ≤ 1
  c21 : ∀ i, ∑ k ∈ range p, a (.y i k) = 1
  c22 : ∀ i k, k < p → a (.w i k) ≤ a (.y i k)
  c23 : ∀ k, k < p → ∑ i, a (.w i k) = 1
  c24 : ∀ i j k, adj i j = true → k < p → a (.f i j k) ≤ ((n : ℤ) - p) * a (.y i k)
  c25 : ∀ i j k, adj i j = true → k < p → a (.f i j k) ≤ ((n : ℤ) - p) * a (.y j k)
  c26 : ∀ i k, k < p → a (.y i k) - ((n : ℤ) - p) * a (.w i k) ≤
    ∑ j, if adj i j = true then a (.f i j k) - a (.f j i k) else 0
  c27 : ∀ i j k, i < j → k < p → a (.y i k) + a (.y j k) - 1 ≤ a (.t i j)

section
variable {n : Nat} {adj : Adj n} {d : Fin n → Fin n → ℚ} {p : Nat} {P : Lp (FlowVar n)}

theorem flowLp_eq (h : flowLp adj d p = .ok P) : P = ⟨flowDecls adj p,
    Lin.sum ((upperTriangle n).map fun e => d e.1 e.2 * Lin.var (FlowVar.t e.1 e.2)),
    flow21 p ++ flow22 p ++ flow23 p ++ flow24 adj p ++ flow25 adj p ++ flow26 adj p ++ flow27 p⟩ :=
  (Lp.build_eq_ok.1 h).1

theorem holds21 {a : FlowVar n → ℤ} :
    (∀ c ∈ flow21 p, c.Holds a) ↔ ∀ i, ∑ k ∈ range p, a (.y i k) = 1 := by
  simp only [flow21, List.mem_map, List.mem_finRange, true_and, forall_exists_index,
    forall_apply_eq_imp_iff, Constr.Holds, Lin.eval_sum, Lin.eval_num, List.map_map,
    Function.comp_def, Lin.eval_var, sum_range]
  refine forall_congr' fun i => ?_
  exact_mod_cast Iff.rfl

theorem holds22 {a : FlowVar n → ℤ} :
    (∀ c ∈ flow22 p, c.Holds a) ↔ ∀ i k, k < p → a (.w i k) ≤ a (.y i k) := by
  simp only [flow22, List.mem_flatMap, List.mem_map, List.mem_finRange, true_and, List.mem_range,
    forall_exists_index, and_imp]
  constructor
  · intro h i k hk
    have := h _ i k hk rfl
    simp only [Constr.Holds, Lin.eval_var] at this
    exact_mod_cast this
  · rintro h _ i k hk rfl
    simp only [Constr.Holds, Lin.eval_var]
    exact_mod_cast h i k hk

theorem holds23 {a : FlowVar n → ℤ} :
    (∀ c ∈ flow23 p, c.Holds a) ↔ ∀ k, k < p → ∑ i, a (.w i k) = 1 := by
  simp only [flow23, List.mem_map, List.mem_range, forall_exists_index, and_imp,
    forall_apply_eq_imp_iff₂, Constr.Holds, Lin.eval_sum, Lin.eval_num, List.map_map,
    Function.comp_def, Lin.eval_var, sum_finRange]
  refine forall_congr' fun k => forall_congr' fun _ => ?_
  exact_mod_cast Iff.rfl

theorem holds24 {a : FlowVar n → ℤ} : (∀ c ∈ flow24 adj p, c.Holds a) ↔
    ∀ i j k, adj i j = true → k < p → a (.f i j k) ≤ ((n : ℤ) - p) * a (.y i k) := by
  simp only [flow24, List.mem_flatMap, List.mem_map, List.mem_finRange, true_and, List.mem_range,
    forall_exists_index, and_imp, mem_neighbors]
  constructor
  · intro h i j k hij hk
    have := h _ i j hij k hk rfl
    simp only [Constr.Holds, Lin.eval_var, Lin.eval_mul] at this
    exact_mod_cast this
  · rintro h _ i j hij k hk rfl
    simp only [Constr.Holds, Lin.eval_var, Lin.eval_mul]
    exact_mod_cast h i j k hij hk

theorem holds25 {a : FlowVar n → ℤ} : (∀ c ∈ flow25 adj p, c.Holds a) ↔
    ∀ i j k, adj i j = true → k < p → a (.f i j k) ≤ ((n : ℤ) - p) * a (.y j k) := by
  simp only [flow25, List.mem_flatMap, List.mem_map, List.mem_finRange, true_and, List.mem_range,
    forall_exists_index, and_imp, mem_neighbors]
  constructor
  · intro h i j k hij hk
    have := h _ i j hij k hk rfl
    simp only [Constr.Holds, Lin.eval_var, Lin.eval_mul] at this
    exact_mod_cast this
  · rintro h _ i j hij k hk rfl
    simp only [Constr.Holds, Lin.eval_var, Lin.eval_mul]
    exact_mod_cast h i j k hij hk

theorem holds26 {a : FlowVar n → ℤ} : (∀ c ∈ flow26 adj p, c.Holds a) ↔
    ∀ i k, k < p → a (.y i k) - ((n : ℤ) - p) * a (.w i k) ≤
      ∑ j, if adj i j = true then a (.f i j k) - a (.f j i k) else 0 := by
  simp only [flow26, List.mem_flatMap, List.mem_map, List.mem_finRange, true_and, List.mem_range,
    forall_exists_index, and_imp]
  have key : ∀ i k, (Constr.Holds (Lin.sum ((neighbors adj i).map fun j =>
      Lin.var (FlowVar.f i j k) - Lin.var (FlowVar.f j i k)) ≥ₗ
      Lin.var (FlowVar.y i k) - ((n : ℚ) - (p : ℚ)) * Lin.var (FlowVar.w i k)) a) ↔
      a (.y i k) - ((n : ℤ) - p) * a (.w i k) ≤
        ∑ j, if adj i j = true then a (.f i j k) - a (.f j i k) else 0 := by
    intro i k
    simp only [Constr.Holds, Lin.eval_var, Lin.eval_mul, Lin.eval_sub, Lin.eval_sum, List.map_map,
      Function.comp_def, ge_iff_le, sum_neighbors]
    exact_mod_cast Iff.rfl
  constructor
  · intro h i k hk
    exact (key i k).1 (h _ i k hk rfl)
  · rintro h _ i k hk rfl
    exact (key i k).2 (h i k hk)

theorem holds27 {a : FlowVar n → ℤ} : (∀ c ∈ flow27 p, c.Holds a) ↔
    ∀ i j k, i < j → k < p → a (.y i k) + a (.y j k) - 1 ≤ a (.t i j) := by
  simp only [flow27, List.mem_flatMap, List.mem_map, List.mem_range,
    forall_exists_index, and_imp, mem_upperTriangle]
  constructor
  · intro h i j k hij hk
    have := h _ (i, j) hij k hk rfl
    simp only [Constr.Holds, Lin.eval_var, Lin.eval_add, Lin.eval_sub, Lin.eval_num, ge_iff_le] at this
    exact_mod_cast this
  · rintro h _ ⟨i, j⟩ hij k hk rfl
    simp only [Constr.Holds, Lin.eval_var, Lin.eval_add, Lin.eval_sub, Lin.eval_num, ge_iff_le]
    exact_mod_cast h i j k hij hk

theorem flow_feasible_iff (h : flowLp adj d p = .ok P) {a : FlowVar n → ℤ} :
    P.Feasible a ↔ FlowSol adj p a := by
  rw [flowLp_eq h]
  unfold Lp.Feasible
  simp only [List.forall_mem_append, holds21, holds22, holds23, holds24, holds25, holds26, holds27,
    flowDecls]
  simp only [List.mem_map, List.mem_flatMap, List.mem_finRange, true_and, List.mem_range,
    mem_neighbors, mem_upperTriangle]
  constructor
  · rintro ⟨⟨⟨⟨h1, h2⟩, h3⟩, h4⟩, ⟨⟨⟨⟨⟨c21, c22⟩, c23⟩, c24⟩, c25⟩, c26⟩, c27⟩
    refine ⟨?_, ?_, ?_, ?_, c21, c22, c23, c24, c25, c26, c27⟩
    · intro i j hij
      have := h1 _ ⟨(i, j), hij, rfl⟩
      simpa using this
    · intro i j k hij hk
      have := h2 _ ⟨i, j, hij, k, hk, rfl⟩
      simpa using this
    · intro i k hk
      have := h3 _ ⟨i, k, hk, rfl⟩
      simpa using this
    · intro i k hk
      have := h4 _ ⟨i, k, hk, rfl⟩
      simpa using this
  · rintro ⟨h1, h2, h3, h4, c21, c22, c23, c24, c25, c26, c27⟩
    refine ⟨⟨⟨⟨?_, ?_⟩, ?_⟩, ?_⟩, ⟨⟨⟨⟨⟨c21, c22⟩, c23⟩, c24⟩, c25⟩, c26⟩, c27⟩
    · rintro _ ⟨⟨i, j⟩, hij, rfl⟩
      simpa using h1 i j hij
    · rintro _ ⟨i, j, hij, k, hk, rfl⟩
      simpa using h2 i j k hij hk
    · rintro _ ⟨i, k, hk, rfl⟩
      simpa using h3 i k hk
    · rintro _ ⟨i, k, hk, rfl⟩
      simpa using h4 i k hk

/-- Every variable used by the constraints exists exactly if the graph is symmetric. -/
theorem flowLp_ok_iff (hp : 0 < p) : (∃ P, flowLp adj d p = .ok P) ↔ Spec.Symmetric adj := by
  have hy : ∀ i k, k < p → ∃ dc ∈ flowDecls adj p, dc.var = FlowVar.y i k := fun i k hk =>
    ⟨⟨.y i k, 0, some 1⟩, by simp [flowDecls, hk], rfl⟩
  have hw : ∀ i k, k < p → ∃ dc ∈ flowDecls adj p, dc.var = FlowVar.w i k := fun i k hk =>
    ⟨⟨.w i k, 0, some 1⟩, by simp [flowDecls, hk], rfl⟩
  have ht : ∀ i j, i < j → ∃ dc ∈ flowDecls adj p, dc.var = FlowVar.t i j := fun i j hk =>
    ⟨⟨.t i j, 0, some 1⟩, by simp [flowDecls, hk, mem_upperTriangle], rfl⟩
  have hf : ∀ i j k, k < p → ((∃ dc ∈ flowDecls adj p, dc.var = FlowVar.f i j k) ↔ adj i j = true) := by
    intro i j k hk
    constructor
    · rintro ⟨dc, hdc, hv⟩
      simp only [flowDecls, List.mem_append, List.mem_map, List.mem_flatMap, List.mem_finRange,
        true_and, mem_neighbors, List.mem_range] at hdc
      rcases hdc with ((⟨_, _, rfl⟩ | ⟨i', j', h, k', _, rfl⟩) | ⟨_, _, _, rfl⟩) | ⟨_, _, _, rfl⟩
      · cases hv
      · cases hv; exact h
      · cases hv
      · cases hv
    · intro h
      exact ⟨⟨.f i j k, 0, none⟩, by simp [flowDecls, hk, mem_neighbors, h], rfl⟩
  constructor
  · rintro ⟨P, h⟩
    have hv := (Lp.build_eq_ok.1 h).2.2
    have key : ∀ i j, adj i j = true → adj j i = true := by
      intro i j hij
      refine (hf j i 0 hp).1 (hv (Lin.sum ((neighbors adj i).map fun j =>
        Lin.var (FlowVar.f i j 0) - Lin.var (FlowVar.f j i 0)) ≥ₗ
        Lin.var (FlowVar.y i 0) - ((n : ℚ) - (p : ℚ)) * Lin.var (FlowVar.w i 0)) ?_ _ ?_)
      · simp only [List.mem_append]
        refine Or.inl (Or.inr ?_)
        simp only [flow26, List.mem_flatMap, List.mem_finRange, true_and, List.mem_map, List.mem_range]
        exact ⟨i, 0, hp, rfl⟩
      · simp only [Lin.vars_sum, List.mem_append, List.mem_flatMap, List.mem_map, Lin.vars_sub,
          Lin.vars_var, exists_exists_and_eq_and]
        exact Or.inl ⟨j, mem_neighbors.2 hij, by simp⟩
    intro i j
    rw [Bool.eq_iff_iff]
    exact ⟨key i j, key j i⟩
  · intro hs
    refine ⟨_, Lp.build_eq_ok.2 ⟨rfl, ?_, ?_⟩⟩
    · simp only [Lin.vars_sum, List.mem_flatMap, List.mem_map, exists_exists_and_eq_and,
        Lin.vars_mul, Lin.vars_var, List.mem_singleton]
      rintro _ ⟨e, he, rfl⟩
      exact ht _ _ (mem_upperTriangle.1 he)
    · intro c hc v hv
      simp only [List.mem_append] at hc
      rcases hc with (((((hc | hc) | hc) | hc) | hc) | hc) | hc
      · simp only [flow21, List.mem_map] at hc
        obtain ⟨i, -, rfl⟩ := hc
        simp only [Lin.vars_sum, Lin.vars_num, List.append_nil, List.mem_flatMap, List.mem_map,
          exists_exists_and_eq_and, Lin.vars_var, List.mem_singleton, List.mem_range] at hv
        obtain ⟨k, hk, rfl⟩ := hv
        exact hy i k hk
      · simp only [flow22, List.mem_map, List.mem_flatMap, List.mem_range] at hc
        obtain ⟨i, -, k, hk, rfl⟩ := hc
        simp only [Lin.vars_var, List.mem_append, List.mem_singleton] at hv
        rcases hv with rfl | rfl
        · exact hw i k hk
        · exact hy i k hk
      · simp only [flow23, List.mem_map, List.mem_range] at hc
        obtain ⟨k, hk, rfl⟩ := hc
        simp only [Lin.vars_sum, Lin.vars_num, List.append_nil, List.mem_flatMap, List.mem_map,
          exists_exists_and_eq_and, Lin.vars_var, List.mem_singleton] at hv
        obtain ⟨i, -, rfl⟩ := hv
        exact hw i k hk
      · simp only [flow24, List.mem_map, List.mem_flatMap, List.mem_range, mem_neighbors] at hc
        obtain ⟨i, -, j, hij, k, hk, rfl⟩ := hc
        simp only [Lin.vars_var, Lin.vars_mul, List.mem_append, List.mem_singleton] at hv
        rcases hv with rfl | rfl
        · exact (hf i j k hk).2 hij
        · exact hy i k hk
      · simp only [flow25, List.mem_map, List.mem_flatMap, List.mem_range, mem_neighbors] at hc
        obtain ⟨i, -, j, hij, k, hk, rfl⟩ := hc
        simp only [Lin.vars_var, Lin.vars_mul, List.mem_append, List.mem_singleton] at hv
        rcases hv with rfl | rfl
        · exact (hf i j k hk).2 hij
        · exact hy j k hk
      · simp only [flow26, List.mem_map, List.mem_flatMap, List.mem_range] at hc
        obtain ⟨i, -, k, hk, rfl⟩ := hc
        simp only [Lin.vars_var, Lin.vars_mul, Lin.vars_sub, Lin.vars_sum, List.mem_append,
          List.mem_singleton, List.mem_flatMap, List.mem_map, exists_exists_and_eq_and,
          mem_neighbors] at hv
        rcases hv with ⟨j, hij, rfl | rfl⟩ | rfl | rfl
        · exact (hf i j k hk).2 hij
        · exact (hf j i k hk).2 ((hs j i).trans hij)
        · exact hy i k hk
        · exact hw i k hk
      · simp only [flow27, List.mem_map, List.mem_flatMap, List.mem_range, mem_upperTriangle] at hc
        obtain ⟨e, he, k, hk, rfl⟩ := hc
        simp only [Lin.vars_var, Lin.vars_add, Lin.vars_sub, Lin.vars_num, List.append_nil,
          List.mem_append, List.mem_singleton] at hv
        rcases hv with rfl | rfl | rfl
        · exact ht _ _ he
        · exact hy _ k hk
        · exact hy _ k hk

/-- The region of every area in a solution. -/
theorem FlowSol.region {a : FlowVar n → ℤ} (h : FlowSol adj p a) (i : Fin n) :
    ∃ k, k < p ∧ a (.y i k) = 1 ∧ ∀ k' < p, k' ≠ k → a (.y i k') = 0 := by
  obtain ⟨k, hk, h1, h2⟩ := exists_one_of_sum_eq_one (range p) (fun k => a (.y i k))
    (fun k hk => h.y01 i k (mem_range.1 hk)) (h.c21 i)
  exact ⟨k, mem_range.1 hk, h1, fun k' hk' => h2 k' (mem_range.2 hk')⟩

theorem FlowSol.sink {a : FlowVar n → ℤ} (h : FlowSol adj p a) {k : Nat} (hk : k < p) :
    ∃ s, a (.w s k) = 1 ∧ a (.y s k) = 1 ∧ ∀ i ≠ s, a (.w i k) = 0 := by
  obtain ⟨s, -, h1, h2⟩ := exists_one_of_sum_eq_one univ (fun i => a (.w i k))
    (fun i _ => h.w01 i k hk) (h.c23 k hk)
  refine ⟨s, h1, ?_, fun i hi => h2 i (mem_univ _) hi⟩
  have := h.c22 s k hk
  have := (h.y01 s k hk).2
  omega

/-- The labels of a solution. -/
def FlowLabels (p : Nat) (a : FlowVar n → ℤ) (L : Labels n) : Prop :=
  ∀ i k, k < p → (L i = (k : Int) ↔ a (.y i k) = 1)

theorem FlowSol.flowDecode {a : FlowVar n → ℤ} (h : FlowSol adj p a) {vals : FlowVar n → Option ℚ}
    (hv : ∀ i k, k < p → vals (.y i k) = some (a (.y i k) : ℚ)) :
    FlowLabels p a (flowDecode p vals) ∧ ∀ i, ∃ k, k < p ∧ flowDecode p vals i = (k : Int) := by
  have key : ∀ i k, k < p → a (.y i k) = 1 → Region.flowDecode p vals i = (k : Int) := by
    intro i k hk h1
    obtain ⟨k0, hk0, -, hu⟩ := h.region i
    unfold Region.flowDecode
    have := foldl_overwrite (List.range p) (fun k => decide (vals (.y i k) = some 1))
      (fun k => (k : Int)) k (List.mem_range.2 hk) (by simp [hv i k hk, h1]) (by
        intro k' hk' ht
        have hk' := List.mem_range.1 hk'
        simp only [hv i k' hk', Option.some.injEq, decide_eq_true_eq] at ht
        have ht : a (.y i k') = 1 := by exact_mod_cast ht
        have e1 : k' = k0 := by by_contra hne; have := hu k' hk' hne; omega
        have e2 : k = k0 := by by_contra hne; have := hu k hk hne; omega
        rw [e1, e2]) 0
    simpa using this
  refine ⟨fun i k hk => ⟨fun hL => ?_, key i k hk⟩, fun i => ?_⟩
  · obtain ⟨k0, hk0, h1, -⟩ := h.region i
    have := key i k0 hk0 h1
    rw [hL] at this
    have : k = k0 := by exact_mod_cast this
    rw [this]; exact h1
  · obtain ⟨k0, hk0, h1, -⟩ := h.region i
    exact ⟨k0, hk0, key i k0 hk0 h1⟩

/-- Flow out of a set of areas closed under borders within the region is impossible. -/
theorem FlowSol.pathToSink {a : FlowVar n → ℤ} (h : FlowSol adj p a) (hs : Spec.Symmetric adj)
    {k : Nat} (hk : k < p) {s : Fin n} (hw : ∀ i ≠ s, a (.w i k) = 0)
    {i : Fin n} (hi : a (.y i k) = 1) : PathIn adj {v | a (.y v k) = 1} i s := by
  classical
  by_contra hcon
  set C : Finset (Fin n) := univ.filter fun v => PathIn adj {v | a (.y v k) = 1} i v with hC
  have hmem : ∀ v, v ∈ C ↔ PathIn adj {v | a (.y v k) = 1} i v := fun v => by simp [hC]
  have hiC : i ∈ C := (hmem i).2 .refl
  have hyC : ∀ v ∈ C, a (.y v k) = 1 := by
    intro v hv
    rcases Relation.ReflTransGen.cases_tail ((hmem v).1 hv) with rfl | ⟨u, -, hu⟩
    · exact hi
    · exact hu.2.1
  have hout : ∀ v ∈ C, ∀ j, j ∉ C → adj v j = true → a (.y j k) = 0 := by
    intro v hv j hj hvj
    by_contra hne
    have hy1 : a (.y j k) = 1 := by have := h.y01 j k hk; omega
    exact hj ((hmem j).2 (((hmem v).1 hv).tail ⟨hyC v hv, hy1, Or.inl hvj⟩))
  let g : Fin n → Fin n → ℤ := fun v j => if adj v j = true then a (.f v j k) - a (.f j v k) else 0
  have hanti : ∀ v j, g v j = - g j v := by
    intro v j
    simp only [g, hs j v]
    split_ifs
    · omega
    · rfl
  have hlow : ∀ v ∈ C, (1 : ℤ) ≤ ∑ j, g v j := by
    intro v hv
    have h26 := h.c26 v k hk
    have : v ≠ s := fun hvs => hcon ((hmem s).1 (hvs ▸ hv))
    rw [hw v this, hyC v hv] at h26
    simpa [g] using h26
  have hup : ∀ v ∈ C, ∑ j, g v j ≤ ∑ j ∈ C, g v j := by
    intro v hv
    rw [← sum_add_sum_compl C]
    have : ∑ j ∈ Cᶜ, g v j ≤ 0 := by
      apply sum_nonpos
      intro j hj
      simp only [g]
      split_ifs with hvj
      · have h1 := h.c25 v j k hvj hk
        rw [hout v hv j (mem_compl.1 hj) hvj] at h1
        have h2 := h.f0 j v k ((hs j v).trans hvj) hk
        omega
      · exact le_refl _
    omega
  have hzero : ∑ v ∈ C, ∑ j ∈ C, g v j = 0 := by
    have h1 : ∑ v ∈ C, ∑ j ∈ C, g v j = - ∑ v ∈ C, ∑ j ∈ C, g v j := by
      conv_lhs => rw [sum_comm]
      rw [← sum_neg_distrib]
      refine sum_congr rfl fun v _ => ?_
      rw [← sum_neg_distrib]
      exact sum_congr rfl fun j _ => hanti j v
    omega
  have h1 : (C.card : ℤ) ≤ ∑ v ∈ C, ∑ j ∈ C, g v j := by
    have := sum_le_sum fun v hv => (hlow v hv).trans (hup v hv)
    simpa using this
  rw [hzero] at h1
  have : 0 < C.card := card_pos.2 ⟨i, hiC⟩
  omega

/-- A region of a solution has at most `n - p` areas. -/
theorem FlowSol.size {a : FlowVar n → ℤ} (h : FlowSol adj p a) (hs : Spec.Symmetric adj)
    {k : Nat} (hk : k < p) : ((univ.filter fun v => a (.y v k) = 1).card : ℤ) ≤ (n : ℤ) - p := by
  let g : Fin n → Fin n → ℤ := fun v j => if adj v j = true then a (.f v j k) - a (.f j v k) else 0
  have hanti : ∀ v j, g v j = - g j v := by
    intro v j
    simp only [g, hs j v]
    split_ifs
    · omega
    · rfl
  have hzero : ∑ v, ∑ j, g v j = 0 := by
    have h1 : ∑ v, ∑ j, g v j = - ∑ v, ∑ j, g v j := by
      conv_lhs => rw [sum_comm]
      rw [← sum_neg_distrib]
      refine sum_congr rfl fun v _ => ?_
      rw [← sum_neg_distrib]
      exact sum_congr rfl fun j _ => hanti j v
    omega
  have h1 : ∑ v, (a (.y v k) - ((n : ℤ) - p) * a (.w v k)) ≤ ∑ v, ∑ j, g v j :=
    sum_le_sum fun v _ => h.c26 v k hk
  rw [hzero, sum_sub_distrib, ← mul_sum, h.c23 k hk] at h1
  have h2 : ((univ.filter fun v => a (.y v k) = 1).card : ℤ) = ∑ v, a (.y v k) := by
    rw [card_filter]
    push_cast
    refine sum_congr rfl fun v _ => ?_
    have := h.y01 v k hk
    split_ifs with h1
    · exact h1.symm
    · omega
  rw [h2]; omega

theorem FlowSol.allContiguous {a : FlowVar n → ℤ} (h : FlowSol adj p a) (hs : Spec.Symmetric adj)
    {L : Labels n} (hL : FlowLabels p a L) (hr : ∀ i, ∃ k, k < p ∧ L i = (k : Int)) :
    AllContiguous adj L ∧ univ.image L = (range p).image fun k : Nat => (k : Int) := by
  constructor
  · intro v
    obtain ⟨k, hk, hv⟩ := hr v
    obtain ⟨s, -, -, hsw⟩ := h.sink hk
    have hreg : regionOf L (L v) = {u | a (.y u k) = 1} := by
      ext u
      show L u = L v ↔ _
      rw [hv, hL u k hk]; rfl
    rw [hreg]
    refine ⟨⟨v, (hL v k hk).1 hv⟩, ?_⟩
    intro x hx y hy
    exact (h.pathToSink hs hk hsw hx).trans (pathIn_symm (h.pathToSink hs hk hsw hy))
  · ext z
    simp only [mem_image, mem_univ, true_and, mem_range]
    constructor
    · rintro ⟨i, rfl⟩
      obtain ⟨k, hk, hi⟩ := hr i
      exact ⟨k, hk, hi.symm⟩
    · rintro ⟨k, hk, rfl⟩
      obtain ⟨s, -, h2, -⟩ := h.sink hk
      exact ⟨s, (hL s k hk).2 h2⟩

/-- The solution of the flow model belonging to a clustering with a rooted tree in every region:
every area sends one unit along the tree to the root. -/
noncomputable def flowAssign (L : Fin n → Nat) (root : Nat → Fin n) (par : Fin n → Fin n) :
    FlowVar n → ℤ
  | .t i j => if L i = L j then 1 else 0
  | .f i j k => if L i = k ∧ i ≠ root (L i) ∧ par i = j then ((descendants L root par i).card : ℤ) else 0
  | .y i k => if L i = k then 1 else 0
  | .w i k => if i = root k then 1 else 0

theorem flowSol_of_rooted {L : Fin n → Nat} {root : Nat → Fin n} {rank : Fin n → Nat}
    {par : Fin n → Fin n} (hs : Spec.Symmetric adj) (h : Rooted adj L root rank par)
    (hL : ∀ i, L i < p) (hsurj : ∀ k < p, ∃ i, L i = k)
    (hsize : ∀ v, (sizeAt L v : ℤ) ≤ (n : ℤ) - p) : FlowSol adj p (flowAssign L root par) := by
  have hroot : ∀ k < p, L (root k) = k := by
    intro k hk
    obtain ⟨i, rfl⟩ := hsurj k hk
    exact h.root_mem i
  have hcard : ∀ i, ((descendants L root par i).card : ℤ) ≤ (n : ℤ) - p := fun i =>
    le_trans (by exact_mod_cast h.card_descendants_le i) (hsize i)
  have hadj : ∀ {i j}, Borders adj i j → adj i j = true := by
    rintro i j (h | h)
    · exact h
    · rw [hs i j]; exact h
  have hnonneg : ∀ i k, 0 ≤ ((n : ℤ) - p) * flowAssign L root par (.y i k) := by
    intro i k
    refine mul_nonneg ?_ ?_
    · have := hcard i; omega
    · simp only [flowAssign]; split_ifs <;> simp
  refine ⟨?_, ?_, ?_, ?_, ?_, ?_, ?_, ?_, ?_, ?_, ?_⟩
  · intro i j _; simp only [flowAssign]; split_ifs <;> simp
  · intro i j k _ _; simp only [flowAssign]; split_ifs <;> simp
  · intro i k _; simp only [flowAssign]; split_ifs <;> simp
  · intro i k _; simp only [flowAssign]; split_ifs <;> simp
  · intro i
    simp only [flowAssign]
    rw [sum_ite_eq, if_pos (mem_range.2 (hL i))]
  · intro i k hk
    simp only [flowAssign]
    split_ifs with h1 h2 h2
    · exact le_refl _
    · exact absurd (by rw [h1]; exact hroot k hk) h2
    · decide
    · exact le_refl _
  · intro k hk
    simp only [flowAssign]
    rw [sum_ite_eq', if_pos (mem_univ _)]
  · intro i j k _ _
    by_cases hc : L i = k ∧ i ≠ root (L i) ∧ par i = j
    · simp only [flowAssign, if_pos hc, if_pos hc.1, mul_one]; exact hcard i
    · refine le_trans (le_of_eq ?_) (hnonneg i k)
      simp only [flowAssign, if_neg hc]
  · intro i j k _ _
    by_cases hc : L i = k ∧ i ≠ root (L i) ∧ par i = j
    · have hj : L j = k := by rw [← hc.2.2, (h.step i hc.2.1).1]; exact hc.1
      simp only [flowAssign, if_pos hc, if_pos hj, mul_one]; exact hcard i
    · refine le_trans (le_of_eq ?_) (hnonneg j k)
      simp only [flowAssign, if_neg hc]
  · intro i k hk
    have hout : ∑ j, (if adj i j = true then flowAssign L root par (.f i j k) else 0) =
        if L i = k ∧ i ≠ root (L i) then ((descendants L root par i).card : ℤ) else 0 := by
      by_cases hc : L i = k ∧ i ≠ root (L i)
      · rw [if_pos hc, sum_eq_single (par i)]
        · rw [if_pos (hadj (h.step i hc.2).2.1)]
          exact if_pos ⟨hc.1, hc.2, rfl⟩
        · intro j _ hj
          simp only [flowAssign]
          rw [if_neg (fun hh : _ ∧ _ ∧ _ => hj hh.2.2.symm), ite_self]
        · intro hh; exact absurd (mem_univ _) hh
      · rw [if_neg hc]
        apply sum_eq_zero
        intro j _
        simp only [flowAssign]
        rw [if_neg (fun hh : _ ∧ _ ∧ _ => hc ⟨hh.1, hh.2.1⟩), ite_self]
    have hin : ∑ j, (if adj i j = true then flowAssign L root par (.f j i k) else 0) =
        if L i = k then ((descendants L root par i).card : ℤ) - 1 else 0 := by
      have h1 : ∀ j, (if adj i j = true then flowAssign L root par (.f j i k) else 0) =
          if j ≠ root (L j) ∧ par j = i then
            (if L i = k then ((descendants L root par j).card : ℤ) else 0) else 0 := by
        intro j
        simp only [flowAssign]
        by_cases hc : j ≠ root (L j) ∧ par j = i
        · have hst := h.step j hc.1
          rw [hc.2] at hst
          rw [if_pos (hadj (borders_symm hst.2.1)), if_pos hc, hst.1]
          by_cases hk' : L j = k
          · rw [if_pos ⟨hk', hc⟩, if_pos hk']
          · rw [if_neg (fun hh => hk' hh.1), if_neg hk']
        · rw [if_neg hc, if_neg (fun hh : L j = k ∧ _ => hc hh.2), ite_self]
      rw [sum_congr rfl fun j _ => h1 j, ← sum_filter]
      by_cases hk' : L i = k
      · simp only [if_pos hk']
        rw [h.card_descendants i]
        push_cast
        ring
      · simp only [if_neg hk', sum_const_zero]
    have hsum : ∑ j, (if adj i j = true then flowAssign L root par (.f i j k) -
        flowAssign L root par (.f j i k) else 0) = (if L i = k ∧ i ≠ root (L i) then
          ((descendants L root par i).card : ℤ) else 0) -
          if L i = k then ((descendants L root par i).card : ℤ) - 1 else 0 := by
      rw [← hout, ← hin, ← sum_sub_distrib]
      refine sum_congr rfl fun j _ => ?_
      split_ifs <;> simp
    rw [hsum]
    have hci := hcard i
    simp only [flowAssign]
    by_cases hk' : L i = k
    · subst hk'
      by_cases hr : i = root (L i)
      · rw [if_pos rfl, if_pos hr, if_neg (fun hh : L i = L i ∧ i ≠ root (L i) => hh.2 hr)]
        omega
      · rw [if_pos rfl, if_neg hr, if_pos ⟨rfl, hr⟩]
        omega
    · rw [if_neg hk', if_neg (fun hh : _ ∧ _ => hk' hh.1)]
      rw [if_neg (fun hh : i = root k => hk' (by rw [hh]; exact hroot k hk))]
      omega
  · intro i j k _ hk
    simp only [flowAssign]
    split_ifs <;> omega

theorem flow_representable {L : Fin n → Nat} (hs : Spec.Symmetric adj) (hc : AllContiguous adj L)
    (hL : ∀ i, L i < p) (hsurj : ∀ k < p, ∃ i, L i = k)
    (hsize : ∀ v, (sizeAt L v : ℤ) ≤ (n : ℤ) - p) : ∃ a, FlowSol adj p a ∧
      (∀ i k, a (.y i k) = if L i = k then 1 else 0) ∧
      ∀ i j, a (.t i j) = if L i = L j then 1 else 0 := by
  by_cases hp : p = 0
  · subst hp
    rcases isEmpty_or_nonempty (Fin n) with he | ⟨⟨v⟩⟩
    · refine ⟨fun _ => 0, ⟨?_, ?_, ?_, ?_, ?_, ?_, ?_, ?_, ?_, ?_, ?_⟩, ?_, ?_⟩ <;> intro i
      all_goals first | exact he.elim i | omega
    · exact absurd (hL v) (Nat.not_lt_zero _)
  · obtain ⟨v0, -⟩ := hsurj 0 (by omega)
    obtain ⟨root, rank, par, hR, -⟩ := exists_rooted_flat v0 hc
    exact ⟨_, flowSol_of_rooted hs hR hL hsurj hsize, fun _ _ => rfl, fun _ _ => rfl⟩

end

end Region
