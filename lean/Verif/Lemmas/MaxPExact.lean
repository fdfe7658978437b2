import Verif.Model.MaxPExact
import Verif.Lemmas.ExactOpt
/-
The program of the exact max-p method over the integers; its solutions and the clusterings they stand
for.
-/
namespace Region

open Spec Finset

/-- The constraints over the integers. -/
structure MaxPSol {n : Nat} (adj : Adj n) (cols : List ((Fin n → ℚ) × ℚ)) (a : OrderVar n → ℤ) :
    Prop where
  t01 : ∀ i j, i < j → 0 ≤ a (.t i j) ∧ a (.t i j) ≤ 1
  x01 : ∀ i k o, k < n → o < n → 0 ≤ a (.x i k o) ∧ a (.x i k o) ≤ 1
  c2 : ∀ k, k < n → ∑ i, a (.x i k 0) ≤ 1
  c3 : ∀ i, ∑ k ∈ range n, ∑ o ∈ range n, a (.x i k o) = 1
  c4 : ∀ i k o, k < n → o + 1 < n →
    a (.x i k (o + 1)) ≤ ∑ j, if adj i j = true then a (.x j k o) else 0
  c5 : ∀ c ∈ cols, ∀ k, k < n → c.2 * ∑ i, (a (.x i k 0) : ℚ) ≤
    ∑ i, ∑ o ∈ range n, c.1 i * (a (.x i k o) : ℚ)
  c6 : ∀ i j k, i < j → k < n →
    ∑ o ∈ range n, (a (.x i k o) + a (.x j k o)) - 1 ≤ a (.t i j)
  first : ∀ i : Fin n, i.val = 0 → ∀ o, o < n → a (.x i 0 o) = if o = 0 then 1 else 0

section
variable {n : Nat} {adj : Adj n} {d : Fin n → Fin n → ℚ} {cols : List ((Fin n → ℚ) × ℚ)}
  {quota : Quota n} {P : Lp (OrderVar n)} {w : ℚ}

theorem mholds2 {a : OrderVar n → ℤ} :
    (∀ c ∈ maxp2, c.Holds a) ↔ ∀ k, k < n → ∑ i, a (.x i k 0) ≤ 1 := by
  simp only [maxp2, List.mem_map, List.mem_range, forall_exists_index, and_imp,
    forall_apply_eq_imp_iff₂, Constr.Holds, Lin.eval_sum, Lin.eval_num, List.map_map,
    Function.comp_def, Lin.eval_var, sum_finRange]
  refine forall_congr' fun k => forall_congr' fun _ => ?_
  exact_mod_cast Iff.rfl

theorem mholds3 {a : OrderVar n → ℤ} : (∀ c ∈ maxp3, c.Holds a) ↔
    ∀ i, ∑ k ∈ range n, ∑ o ∈ range n, a (.x i k o) = 1 := by
  simp only [maxp3, List.mem_map, List.mem_finRange, true_and, forall_exists_index,
    forall_apply_eq_imp_iff, Constr.Holds, Lin.eval_sum, Lin.eval_num, sum_map_flatMap, List.map_map,
    Function.comp_def, Lin.eval_var, sum_range]
  refine forall_congr' fun i => ?_
  exact_mod_cast Iff.rfl

theorem mholds4 {a : OrderVar n → ℤ} : (∀ c ∈ maxp4 adj, c.Holds a) ↔
    ∀ i k o, k < n → o + 1 < n →
      a (.x i k (o + 1)) ≤ ∑ j, if adj i j = true then a (.x j k o) else 0 := by
  simp only [maxp4, List.mem_flatMap, List.mem_map, List.mem_finRange, true_and, List.mem_range,
    forall_exists_index, and_imp]
  have key : ∀ i k o, (Constr.Holds (Lin.var (OrderVar.x i k (o + 1)) ≤ₗ
        Lin.sum ((neighbors adj i).map fun j => Lin.var (OrderVar.x j k o))) a) ↔
      a (.x i k (o + 1)) ≤ ∑ j, if adj i j = true then a (.x j k o) else 0 := by
    intro i k o
    simp only [Constr.Holds, Lin.eval_var, Lin.eval_sum, List.map_map, Function.comp_def,
      sum_neighbors]
    exact_mod_cast Iff.rfl
  constructor
  · intro h i k o hk ho
    exact (key i k o).1 (h _ i k hk o (by omega) rfl)
  · rintro h _ i k hk o ho rfl
    exact (key i k o).2 (h i k o hk (by omega))

theorem mholds5 {a : OrderVar n → ℤ} : (∀ c ∈ maxp5 cols, c.Holds a) ↔
    ∀ c ∈ cols, ∀ k, k < n → c.2 * ∑ i, (a (.x i k 0) : ℚ) ≤
      ∑ i, ∑ o ∈ range n, c.1 i * (a (.x i k o) : ℚ) := by
  have key : ∀ (c : (Fin n → ℚ) × ℚ) (k : Nat), Constr.Holds
      (Lin.sum ((List.finRange n).flatMap fun i => (List.range n).map fun o =>
        c.1 i * Lin.var (OrderVar.x i k o)) ≥ₗ
      c.2 * Lin.sum ((List.finRange n).map fun i => Lin.var (OrderVar.x i k 0))) a ↔
      c.2 * ∑ i, (a (.x i k 0) : ℚ) ≤ ∑ i, ∑ o ∈ range n, c.1 i * (a (.x i k o) : ℚ) := by
    intro c k
    simp only [Constr.Holds, Lin.eval_sum, Lin.eval_mul, sum_map_flatMap, List.map_map,
      Function.comp_def, Lin.eval_var, sum_range, sum_finRange, ge_iff_le]
  simp only [maxp5, List.mem_flatMap, List.mem_map, List.mem_range, forall_exists_index, and_imp]
  constructor
  · intro h c hc k hk
    exact (key c k).1 (h _ c hc k hk rfl)
  · rintro h _ c hc k hk rfl
    exact (key c k).2 (h c hc k hk)

theorem mholds6 {a : OrderVar n → ℤ} : (∀ c ∈ maxp6, c.Holds a) ↔
    ∀ i j k, i < j → k < n →
      ∑ o ∈ range n, (a (.x i k o) + a (.x j k o)) - 1 ≤ a (.t i j) := by
  simp only [maxp6, List.mem_flatMap, List.mem_map, List.mem_range,
    forall_exists_index, and_imp, mem_upperTriangle]
  constructor
  · intro h i j k hij hk
    have := h _ (i, j) hij k hk rfl
    simp only [Constr.Holds, Lin.eval_var, Lin.eval_sub, Lin.eval_num, Lin.eval_sum, Lin.eval_add,
      List.map_map, Function.comp_def, sum_range, ge_iff_le] at this
    exact_mod_cast this
  · rintro h _ ⟨i, j⟩ hij k hk rfl
    simp only [Constr.Holds, Lin.eval_var, Lin.eval_sub, Lin.eval_num, Lin.eval_sum, Lin.eval_add,
      List.map_map, Function.comp_def, sum_range, ge_iff_le]
    exact_mod_cast h i j k hij hk

theorem mem_take_one (i : Fin n) : i ∈ (List.finRange n).take 1 ↔ i.val = 0 := by
  cases n with
  | zero => exact i.elim0
  | succ n => rw [List.finRange_succ, List.take_succ_cons, List.take_zero, List.mem_singleton, Fin.ext_iff]; rfl

theorem mholdsFirst {a : OrderVar n → ℤ} : (∀ c ∈ maxpFirst, c.Holds a) ↔
    ∀ i : Fin n, i.val = 0 → ∀ o, o < n → a (.x i 0 o) = if o = 0 then 1 else 0 := by
  simp only [maxpFirst, List.mem_flatMap, List.mem_map, List.mem_range, forall_exists_index, and_imp,
    mem_take_one]
  have key : ∀ (i : Fin n) (o : Nat), Constr.Holds
      (Lin.var (OrderVar.x i 0 o) =ₗ Lin.num (if o = 0 then 1 else 0)) a ↔
      a (.x i 0 o) = if o = 0 then 1 else 0 := by
    intro i o
    simp only [Constr.Holds, Lin.eval_var, Lin.eval_num]
    split_ifs <;> exact_mod_cast Iff.rfl
  constructor
  · intro h i hi o ho
    exact (key i o).1 (h _ i hi o ho rfl)
  · rintro h _ i hi o ho rfl
    exact (key i o).2 (h i hi o ho)

/-- The statements build a problem unless the weight or a threshold cannot be determined. -/
theorem maxpLp_ok_iff : maxpLp adj d quota = .ok P ↔ ∃ w cols, maxpWeight d = .ok w ∧
    quota.cols = .ok cols ∧ P = ⟨maxpDecls, maxpObjective d w,
      maxp2 ++ maxp3 ++ maxp4 adj ++ maxp5 cols ++ maxp6 ++ maxpFirst⟩ := by
  have hx : ∀ i k o, k < n → o < n →
      ∃ dc ∈ maxpDecls (n := n), dc.var = OrderVar.x i k o := fun i k o hk ho =>
    ⟨⟨.x i k o, 0, some 1⟩, by simp [maxpDecls, hk, ho], rfl⟩
  have ht : ∀ i j, i < j → ∃ dc ∈ maxpDecls (n := n), dc.var = OrderVar.t i j := fun i j hk =>
    ⟨⟨.t i j, 0, some 1⟩, by simp [maxpDecls, hk, mem_upperTriangle], rfl⟩
  unfold maxpLp
  constructor
  · intro h
    obtain ⟨w, hw, h⟩ := Res.bind_eq_ok.1 h
    obtain ⟨cols, hc, h⟩ := Res.bind_eq_ok.1 h
    exact ⟨w, cols, hw, hc, (Lp.build_eq_ok.1 h).1⟩
  · rintro ⟨w, cols, hw, hc, rfl⟩
    rw [hw, hc]
    refine Lp.build_eq_ok.2 ⟨rfl, ?_, ?_⟩
    · intro v hv
      simp only [maxpObjective, Lin.vars_add, Lin.vars_mul, Lin.vars_sum, List.mem_append,
        List.mem_flatMap, List.mem_map, List.mem_range] at hv
      rcases hv with ⟨_, ⟨k, hk, i, -, rfl⟩, hv⟩ | ⟨_, ⟨e, he, rfl⟩, hv⟩
      · obtain rfl := List.mem_singleton.1 hv
        exact hx i k 0 hk i.pos
      · rw [Lin.vars_mul] at hv
        obtain rfl := List.mem_singleton.1 hv
        exact ht _ _ (mem_upperTriangle.1 he)
    · intro c hc v hv
      simp only [List.mem_append] at hc
      rcases hc with ((((hc | hc) | hc) | hc) | hc) | hc
      · simp only [maxp2, List.mem_map, List.mem_range] at hc
        obtain ⟨k, hk, rfl⟩ := hc
        simp only [Lin.vars_sum, Lin.vars_num, List.append_nil, List.mem_flatMap, List.mem_map,
          exists_exists_and_eq_and, Lin.vars_var, List.mem_singleton] at hv
        obtain ⟨i, -, rfl⟩ := hv
        exact hx i k 0 hk i.pos
      · simp only [maxp3, List.mem_map] at hc
        obtain ⟨i, -, rfl⟩ := hc
        simp only [Lin.vars_sum, Lin.vars_num, List.append_nil, List.mem_flatMap, List.mem_map,
          List.mem_range] at hv
        obtain ⟨_, ⟨k, hk, o, ho, rfl⟩, hv⟩ := hv
        obtain rfl := List.mem_singleton.1 hv
        exact hx i k o hk ho
      · simp only [maxp4, List.mem_map, List.mem_flatMap, List.mem_range] at hc
        obtain ⟨i, -, k, hk, o, ho, rfl⟩ := hc
        simp only [Lin.vars_var, Lin.vars_sum, List.mem_append, List.mem_singleton,
          List.mem_flatMap, List.mem_map, exists_exists_and_eq_and] at hv
        rcases hv with rfl | ⟨j, -, rfl⟩
        · exact hx i k _ hk (by omega)
        · exact hx j k o hk (by omega)
      · simp only [maxp5, List.mem_map, List.mem_flatMap, List.mem_range] at hc
        obtain ⟨c', -, k, hk, rfl⟩ := hc
        simp only [Lin.vars_sum, Lin.vars_mul, List.mem_append, List.mem_flatMap, List.mem_map,
          List.mem_range] at hv
        rcases hv with ⟨_, ⟨i, -, o, ho, rfl⟩, hv⟩ | ⟨_, ⟨i, -, rfl⟩, hv⟩
        · rw [Lin.vars_mul] at hv
          obtain rfl := List.mem_singleton.1 hv
          exact hx i k o hk ho
        · obtain rfl := List.mem_singleton.1 hv
          exact hx i k 0 hk i.pos
      · simp only [maxp6, List.mem_map, List.mem_flatMap, List.mem_range, mem_upperTriangle] at hc
        obtain ⟨e, he, k, hk, rfl⟩ := hc
        simp only [Lin.vars_var, Lin.vars_sub, Lin.vars_num, Lin.vars_sum, Lin.vars_add,
          List.append_nil, List.mem_append, List.mem_singleton, List.mem_flatMap, List.mem_map,
          exists_exists_and_eq_and, List.mem_range] at hv
        rcases hv with rfl | ⟨o, ho, rfl | rfl⟩
        · exact ht _ _ he
        · exact hx _ k o hk ho
        · exact hx _ k o hk ho
      · simp only [maxpFirst, List.mem_map, List.mem_flatMap, List.mem_range] at hc
        obtain ⟨i, -, o, ho, rfl⟩ := hc
        simp only [Lin.vars_var, Lin.vars_num, List.append_nil, List.mem_singleton] at hv
        subst hv
        exact hx i 0 o i.pos ho

theorem maxp_feasible_iff (hc : quota.cols = .ok cols) (h : maxpLp adj d quota = .ok P)
    {a : OrderVar n → ℤ} : P.Feasible a ↔ MaxPSol adj cols a := by
  obtain ⟨w, cols', -, hc', rfl⟩ := maxpLp_ok_iff.1 h
  obtain rfl : cols = cols' := by rw [hc] at hc'; exact Res.ok.inj hc'
  unfold Lp.Feasible
  simp only [List.forall_mem_append, mholds2, mholds3, mholds4, mholds5, mholds6, mholdsFirst,
    maxpDecls]
  simp only [List.mem_map, List.mem_flatMap, List.mem_finRange, true_and, List.mem_range,
    mem_upperTriangle]
  constructor
  · rintro ⟨⟨h1, h2⟩, ⟨⟨⟨⟨c2, c3⟩, c4⟩, c5⟩, c6⟩, c7⟩
    refine ⟨?_, ?_, c2, c3, c4, c5, c6, c7⟩
    · intro i j hij
      simpa using h1 _ ⟨(i, j), hij, rfl⟩
    · intro i k o hk ho
      simpa using h2 _ ⟨i, k, hk, o, ho, rfl⟩
  · rintro ⟨h1, h2, c2, c3, c4, c5, c6, c7⟩
    refine ⟨⟨?_, ?_⟩, ⟨⟨⟨⟨c2, c3⟩, c4⟩, c5⟩, c6⟩, c7⟩
    · rintro _ ⟨⟨i, j⟩, hij, rfl⟩
      simpa using h1 i j hij
    · rintro _ ⟨i, k, hk, o, ho, rfl⟩
      simpa using h2 i k o hk ho

theorem MaxPSol.orderX {a : OrderVar n → ℤ} (h : MaxPSol adj cols a) :
    OrderX adj n n fun i k o => a (.x i k o) :=
  ⟨h.x01, h.c3, h.c2, h.c4⟩

theorem MaxPSol.decode {a : OrderVar n → ℤ} (h : MaxPSol adj cols a) {vals : OrderVar n → Option ℚ}
    (hv : ∀ i k o, k < n → o < n → vals (.x i k o) = some (a (.x i k o) : ℚ)) :
    OrderLabels n n (fun i k o => a (.x i k o)) (maxpDecode vals) := by
  intro i
  obtain ⟨k, o, hk, ho, h1, h2⟩ := h.orderX.decode (vals := fun k o => vals (.x i k o)) (hv i)
  exact ⟨k, o, hk, ho, h1, h2⟩

theorem MaxPSol.t_ge {a : OrderVar n → ℤ} (h : MaxPSol adj cols a) {L : Labels n}
    (hL : OrderLabels n n (fun i k o => a (.x i k o)) L) {i j : Fin n} (hij : i < j)
    (heq : L i = L j) : 1 ≤ a (.t i j) := by
  obtain ⟨k, o, hk, ho, hi, -⟩ := hL i
  have h1 := h.c6 i j k hij hk
  rw [sum_add_distrib, hL.sum i hk, hL.sum j hk, if_pos hi, if_pos (heq ▸ hi)] at h1
  omega

/-- The number of roots is the number of regions. -/
theorem MaxPSol.roots {a : OrderVar n → ℤ} (h : MaxPSol adj cols a) {L : Labels n}
    (hL : OrderLabels n n (fun i k o => a (.x i k o)) L) :
    ∑ k ∈ range n, ∑ i, a (.x i k 0) = (numRegions L : ℤ) := by
  rcases Nat.eq_zero_or_pos n with hn | hn
  · subst hn
    simp [numRegions]
  have h1 : ∀ k ∈ range n, ∑ i, a (.x i k 0) = if ∃ i, L i = (k : Int) then 1 else 0 := fun k hk =>
    h.orderX.sum_roots hn hL (mem_range.1 hk)
  rw [sum_congr rfl h1, Finset.sum_boole]
  congr 1
  unfold numRegions
  have : univ.image L = ((range n).filter fun k : Nat => ∃ i, L i = (k : Int)).image fun k : Nat => (k : Int) := by
    ext z
    simp only [mem_image, mem_univ, true_and, mem_filter, mem_range]
    constructor
    · rintro ⟨i, rfl⟩
      obtain ⟨k, o, hk, ho, hi, -⟩ := hL i
      exact ⟨k, ⟨hk, i, hi⟩, hi.symm⟩
    · rintro ⟨k, ⟨hk, i, hi⟩, rfl⟩
      exact ⟨i, hi⟩
  rw [this, card_image_of_injective _ fun a b hab => by exact_mod_cast hab]

/-- The sum of a column over a region. -/
theorem MaxPSol.column {a : OrderVar n → ℤ} {L : Labels n}
    (hL : OrderLabels n n (fun i k o => a (.x i k o)) L) (s : Fin n → ℚ) {k : Nat} (hk : k < n) :
    ∑ i, ∑ o ∈ range n, s i * (a (.x i k o) : ℚ) = ∑ i ∈ univ.filter (fun i => L i = (k : Int)), s i := by
  rw [sum_filter]
  refine sum_congr rfl fun i _ => ?_
  rw [← mul_sum]
  have := hL.sum i hk
  have h2 : (∑ o ∈ range n, (a (.x i k o) : ℚ)) = ((∑ o ∈ range n, a (.x i k o) : ℤ) : ℚ) := by
    push_cast; rfl
  rw [h2, this]
  split_ifs <;> simp

/-- Every region of a solution meets every threshold. -/
theorem MaxPSol.meets {a : OrderVar n → ℤ} (h : MaxPSol adj cols a) {L : Labels n}
    (hL : OrderLabels n n (fun i k o => a (.x i k o)) L) :
    ∀ c ∈ cols, ∀ v, c.2 ≤ ∑ u ∈ univ.filter (fun u => L u = L v), c.1 u := by
  intro c hc v
  obtain ⟨k, o, hk, ho, hv, -⟩ := hL v
  have h5 := h.c5 c hc k hk
  rw [MaxPSol.column hL c.1 hk] at h5
  have h1 := h.orderX.sum_roots v.pos hL hk
  rw [if_pos ⟨v, hv⟩] at h1
  have h2 : (∑ i, (a (.x i k 0) : ℚ)) = ((∑ i, a (.x i k 0) : ℤ) : ℚ) := by push_cast; rfl
  rw [h2, h1] at h5
  rw [hv]
  simpa using h5

/-- Every clustering into contiguous regions that meet the thresholds, numbered so that the first area
is in region 0, is a solution. -/
theorem maxp_representable (hs : Spec.Symmetric adj) {L : Fin n → Nat} (hc : AllContiguous adj L)
    (hL : ∀ i, L i < n) (h0 : ∀ i : Fin n, i.val = 0 → L i = 0)
    (hm : ∀ c ∈ cols, ∀ v, c.2 ≤ ∑ u ∈ univ.filter (fun u => L u = L v), c.1 u) :
    ∃ a, MaxPSol adj cols a ∧ OrderLabels n n (fun i k o => a (.x i k o)) (fun i => (L i : Int)) ∧
      ∀ i j, a (.t i j) = if L i = L j then 1 else 0 := by
  classical
  rcases Nat.eq_zero_or_pos n with hn | hn
  · subst hn
    refine ⟨fun | .t i j => if L i = L j then 1 else 0 | .x _ _ _ => 0,
      ⟨?_, ?_, ?_, ?_, ?_, ?_, ?_, ?_⟩, fun i => i.elim0, fun _ _ => rfl⟩
    all_goals first
      | exact fun i => i.elim0
      | (intro k hk; omega)
  have hroot : ∃ root : Nat → Fin n, root 0 = ⟨0, hn⟩ ∧ ∀ v, L (root (L v)) = L v := by
    refine ⟨fun k => if k = 0 then ⟨0, hn⟩ else if h : ∃ v, L v = k then h.choose else ⟨0, hn⟩,
      by simp, ?_⟩
    intro v
    dsimp only
    by_cases hv : L v = 0
    · rw [if_pos hv, hv]
      exact h0 _ rfl
    · rw [if_neg hv]
      have hex : ∃ u, L u = L v := ⟨v, rfl⟩
      rw [dif_pos hex]
      exact hex.choose_spec
  obtain ⟨root, hroot0, hroot⟩ := hroot
  obtain ⟨rank, par, hR, hrank, -⟩ := exists_rooted hc root hroot
  have hrn : ∀ i, rank i < n := by
    intro i
    have h1 := hrank i
    have h2 : sizeAt L i ≤ n := by
      unfold sizeAt
      exact (card_le_univ _).trans (by simp)
    omega
  have hX := orderX_placeX (K := n) (O := n) hs hR hL hrn
  have key : ∀ v k, ∑ o ∈ range n, placeX L rank v k o = if L v = k then 1 else 0 := by
    intro v k
    by_cases hv : L v = k
    · rw [if_pos hv, sum_eq_single (rank v)]
      · simp [placeX, hv]
      · intro o _ hne
        exact if_neg fun hh => hne hh.2.symm
      · intro hh; exact absurd (mem_range.2 (hrn v)) hh
    · rw [if_neg hv]
      exact sum_eq_zero fun o _ => if_neg fun hh => hv hh.1
  have hOL : OrderLabels n n (fun i k o => placeX L rank i k o) (fun i => (L i : Int)) := by
    intro i
    refine ⟨L i, rank i, hL i, hrn i, rfl, by simp [placeX], ?_⟩
    intro k' o' _ _ hne
    refine if_neg fun hh => ?_
    rcases hne with hne | hne
    · exact hne hh.1.symm
    · exact hne hh.2.symm
  refine ⟨orderAssign L rank, ⟨?_, hX.x01, hX.root, hX.one, hX.link, ?_, ?_, ?_⟩, hOL, fun _ _ => rfl⟩
  · intro i j _; simp only [orderAssign]; split_ifs <;> simp
  · intro c hcm k hk
    rw [MaxPSol.column (a := orderAssign L rank) hOL c.1 hk]
    have h2 : (∑ i, (orderAssign L rank (.x i k 0) : ℚ)) = ((∑ i, placeX L rank i k 0 : ℤ) : ℚ) := by
      simp only [orderAssign]; push_cast; rfl
    rw [h2, sum_placeX_roots hR]
    split_ifs with hex
    · obtain ⟨v, rfl⟩ := hex
      have := hm c hcm v
      simpa using this
    · have : (univ.filter fun i => (L i : Int) = (k : Int)) = ∅ :=
        filter_eq_empty_iff.2 fun i _ hi => hex ⟨i, by exact_mod_cast hi⟩
      rw [this]; simp
  · intro i j k _ hk
    simp only [orderAssign]
    rw [sum_add_distrib, key, key]
    split_ifs <;> omega
  · intro i hi o ho
    simp only [orderAssign, placeX]
    have h1 : i = root (L i) := by
      rw [h0 i hi, hroot0]; exact Fin.ext hi
    have h2 := (hR.zero i).2 h1
    rw [h2, h0 i hi]
    by_cases ho0 : o = 0
    · simp [ho0]
    · rw [if_neg (fun hh => ho0 hh.2.symm), if_neg ho0]

/-- The weight of a region exceeds the sum of all dissimilarities. -/
theorem lt_weight (h : maxpWeight d = .ok w) :
    ∑ e ∈ univ.filter (fun e : Fin n × Fin n => e.1 < e.2), d e.1 e.2 < w := by
  unfold maxpWeight at h
  dsimp only at h
  split_ifs at h with h0
  rw [Res.ok.injEq] at h
  rw [← sum_upperTriangle (fun e => d e.1 e.2), ← h, add_comm]
  have := Int.lt_zpow_succ_log_self (R := ℚ) (b := 10) (by omega)
    ((upperTriangle n).map fun e => d e.1 e.2).sum
  exact_mod_cast this

theorem eval_maxpObjective (a : OrderVar n → ℤ) : (maxpObjective d w).eval a =
    -w * ((∑ k ∈ range n, ∑ i, a (.x i k 0) : ℤ) : ℚ) +
      ∑ e ∈ univ.filter (fun e : Fin n × Fin n => e.1 < e.2), d e.1 e.2 * (a (.t e.1 e.2) : ℚ) := by
  unfold maxpObjective
  rw [Lin.eval_add, Lin.eval_mul, eval_objective, Lin.eval_sum]
  congr 2
  simp only [sum_map_flatMap, List.map_map, Function.comp_def, Lin.eval_var, sum_finRange, sum_range]
  push_cast
  rfl

/-- A clustering can be numbered `0 … n-1` with the first area in region 0. -/
theorem exists_first_numbering {κ : Type} [DecidableEq κ] (L : Fin n → κ) :
    ∃ N : Fin n → Nat, (∀ i, N i < n) ∧ (∀ i : Fin n, i.val = 0 → N i = 0) ∧
      ∀ i j, N i = N j ↔ L i = L j := by
  classical
  have hmin : ∀ i, ∃ m : Fin n, L m = L i ∧ ∀ j, L j = L i → m ≤ j := by
    intro i
    obtain ⟨m, hm, hle⟩ := Finset.exists_min_image (univ.filter fun j => L j = L i) id
      ⟨i, by simp⟩
    exact ⟨m, (mem_filter.1 hm).2, fun j hj => hle j (mem_filter.2 ⟨mem_univ _, hj⟩)⟩
  choose f hf hfle using hmin
  refine ⟨fun i => (f i).val, fun i => (f i).isLt, ?_, ?_⟩
  · intro i hi
    have := Fin.le_def.1 (hfle i i rfl)
    show (f i).val = 0
    omega
  · intro i j
    constructor
    · intro h
      have : f i = f j := Fin.ext h
      rw [← hf i, this, hf j]
    · intro h
      have h1 := Fin.le_def.1 (hfle i (f j) ((hf j).trans h.symm))
      have h2 := Fin.le_def.1 (hfle j (f i) ((hf i).trans h))
      show (f i).val = (f j).val
      omega

end

/-- A problem whose objective mentions zero-one variables only has an optimal solution if it has a
solution. -/
theorem exists_optimal_01 {V : Type} [DecidableEq V] {P : Lp V}
    (h01 : ∀ v ∈ P.objective.vars, ∃ dc ∈ P.decls, dc = ⟨v, 0, some 1⟩)
    (h : ∃ a, P.Feasible a) : ∃ a, P.Optimal a := by
  classical
  let vs := P.objective.vars.toFinset
  let val : (vs → Bool) → ℚ := fun b =>
    P.objective.eval fun v => if hv : v ∈ vs then (if b ⟨v, hv⟩ then 1 else 0) else 0
  let pat : (V → ℤ) → (vs → Bool) := fun a v => decide (a v.1 = 1)
  have hval : ∀ a, P.Feasible a → P.objective.eval a = val (pat a) := by
    intro a ha
    simp only [val, Lin.eval]
    congr 2
    refine List.map_congr_left fun q hq => ?_
    have hmem : q.2 ∈ P.objective.vars := List.mem_map_of_mem hq
    have hq' : q.2 ∈ vs := List.mem_toFinset.2 hmem
    rw [dif_pos hq']
    obtain ⟨dc, hdc, rfl⟩ := h01 _ hmem
    have h1 := ha.1 _ hdc
    have h2 := h1.2 1 rfl
    have h3 := h1.1
    dsimp only at h2 h3
    simp only [pat, decide_eq_true_eq]
    split_ifs with h4
    · rw [h4]
    · have : a q.2 = 0 := by omega
      rw [this]
  let S : Finset (vs → Bool) := univ.filter fun b => ∃ a, P.Feasible a ∧ pat a = b
  obtain ⟨a0, ha0⟩ := h
  obtain ⟨b, hb, hmin⟩ := Finset.exists_min_image S val
    ⟨pat a0, by simp only [S, mem_filter, mem_univ, true_and]; exact ⟨a0, ha0, rfl⟩⟩
  obtain ⟨a, ha, rfl⟩ := (mem_filter.1 hb).2
  refine ⟨a, ha, fun c hc => ?_⟩
  rw [hval a ha, hval c hc]
  exact hmin _ (mem_filter.2 ⟨mem_univ _, c, hc, rfl⟩)

end Region
