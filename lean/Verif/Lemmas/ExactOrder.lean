import Verif.Lemmas.Bfs
import Verif.Lemmas.Lp
/-
Assigning areas to regions by contiguity order: the part that `_order` and the exact max-p method
have in common, and the integer program of `_order`.
-/
namespace Region

open Spec Finset

/-- Every area has one region `k` and one order `o`, every region at most one area of order 0, and an
area of a later order borders one of the order before. -/
structure OrderX {n : Nat} (adj : Adj n) (K O : Nat) (x : Fin n → Nat → Nat → ℤ) : Prop where
  x01 : ∀ i k o, k < K → o < O → 0 ≤ x i k o ∧ x i k o ≤ 1
  one : ∀ i, ∑ k ∈ range K, ∑ o ∈ range O, x i k o = 1
  root : ∀ k, k < K → ∑ i, x i k 0 ≤ 1
  link : ∀ i k o, k < K → o + 1 < O → x i k (o + 1) ≤ ∑ j, if adj i j = true then x j k o else 0

section
variable {n : Nat} {adj : Adj n} {K O : Nat} {x : Fin n → Nat → Nat → ℤ}

/-- The place of an area. -/
theorem OrderX.place (h : OrderX adj K O x) (i : Fin n) : ∃ k o, k < K ∧ o < O ∧ x i k o = 1 ∧
    ∀ k' o', k' < K → o' < O → (k' ≠ k ∨ o' ≠ o) → x i k' o' = 0 := by
  have hone := h.one i
  rw [← sum_product'] at hone
  obtain ⟨⟨k, o⟩, hko, h1, h2⟩ := exists_one_of_sum_eq_one (range K ×ˢ range O)
    (fun q => x i q.1 q.2) (by
      rintro ⟨k, o⟩ hq
      simp only [mem_product, mem_range] at hq
      exact h.x01 i k o hq.1 hq.2) hone
  simp only [mem_product, mem_range] at hko
  refine ⟨k, o, hko.1, hko.2, h1, fun k' o' hk' ho' hne => h2 (k', o') (by simp [hk', ho']) ?_⟩
  intro heq
  cases heq
  rcases hne with h | h <;> exact h rfl

/-- The regions of a solution. -/
def OrderLabels (K O : Nat) (x : Fin n → Nat → Nat → ℤ) (L : Labels n) : Prop :=
  ∀ i, ∃ k o, k < K ∧ o < O ∧ L i = (k : Int) ∧ x i k o = 1 ∧
    ∀ k' o', k' < K → o' < O → (k' ≠ k ∨ o' ≠ o) → x i k' o' = 0

theorem OrderLabels.eq_iff {L : Labels n} (hL : OrderLabels K O x L) (i : Fin n) {k : Nat}
    (hk : k < K) : L i = (k : Int) ↔ ∃ o < O, x i k o = 1 := by
  obtain ⟨k0, o0, hk0, ho0, hi, h1, h2⟩ := hL i
  rw [hi]
  constructor
  · intro h
    have : k0 = k := by exact_mod_cast h
    subst this
    exact ⟨o0, ho0, h1⟩
  · rintro ⟨o, ho, h⟩
    by_contra hne
    have := h2 k o hk ho (Or.inl fun he => hne (by rw [he]))
    omega

theorem OrderLabels.sum {L : Labels n} (hL : OrderLabels K O x L) (i : Fin n) {k : Nat}
    (hk : k < K) : ∑ o ∈ range O, x i k o = if L i = (k : Int) then 1 else 0 := by
  obtain ⟨k0, o0, hk0, ho0, hi, h1, h2⟩ := hL i
  rw [hi]
  by_cases hkk : k0 = k
  · subst hkk
    rw [if_pos rfl, sum_eq_single o0, h1]
    · intro o ho hne
      exact h2 k0 o hk (mem_range.1 ho) (Or.inr hne)
    · intro hh; exact absurd (mem_range.2 ho0) hh
  · rw [if_neg (fun hh : (k0 : Int) = (k : Int) => hkk (by exact_mod_cast hh))]
    exact sum_eq_zero fun o ho => h2 k o hk (mem_range.1 ho) (Or.inl fun he => hkk he.symm)

theorem OrderX.exists_root (h : OrderX adj K O x) {k : Nat} (hk : k < K) :
    ∀ (o : Nat) (_ : o < O) (i : Fin n), x i k o = 1 →
      ∃ s, x s k 0 = 1 ∧ PathIn adj {v | ∃ o < O, x v k o = 1} i s := by
  intro o
  induction o with
  | zero => intro _ i hi; exact ⟨i, hi, .refl⟩
  | succ o ih =>
    intro ho i hi
    have hl := h.link i k o hk ho
    rw [hi] at hl
    have : ∃ j, adj i j = true ∧ x j k o = 1 := by
      by_contra hcon
      push Not at hcon
      have : ∑ j, (if adj i j = true then x j k o else 0) ≤ 0 := by
        apply sum_nonpos
        intro j _
        split_ifs with hij
        · have h1 := hcon j hij
          have h2 := h.x01 j k o hk (by omega)
          omega
        · exact le_refl _
      omega
    obtain ⟨j, hij, hj⟩ := this
    obtain ⟨s, hs, hp⟩ := ih (by omega) j hj
    exact ⟨s, hs, Relation.ReflTransGen.head ⟨⟨o + 1, ho, hi⟩, ⟨o, by omega, hj⟩, Or.inl hij⟩ hp⟩

theorem OrderX.root_unique (h : OrderX adj K O x) (hO : 0 < O) {k : Nat} (hk : k < K) {s s' : Fin n}
    (hs : x s k 0 = 1) (hs' : x s' k 0 = 1) : s = s' := by
  by_contra hne
  have h1 := h.root k hk
  rw [← add_sum_erase univ _ (mem_univ s), ← add_sum_erase _ _ (mem_erase.2 ⟨fun h => hne h.symm,
    mem_univ s'⟩), hs, hs'] at h1
  have : 0 ≤ ∑ i ∈ (univ.erase s).erase s', x i k 0 :=
    sum_nonneg fun i _ => (h.x01 i k 0 hk hO).1
  omega

theorem OrderX.allContiguous (h : OrderX adj K O x) {L : Labels n} (hL : OrderLabels K O x L) :
    AllContiguous adj L := by
  intro v
  obtain ⟨k, o, hk, ho, hv, h1, -⟩ := hL v
  have hreg : regionOf L (L v) = {v | ∃ o < O, x v k o = 1} := by
    ext u
    show L u = L v ↔ _
    rw [hv, hL.eq_iff u hk]; rfl
  rw [hreg]
  obtain ⟨s, hs, -⟩ := h.exists_root hk o ho v h1
  have key : ∀ u ∈ {v | ∃ o < O, x v k o = 1}, PathIn adj {v | ∃ o < O, x v k o = 1} u s := by
    rintro u ⟨o', ho', hu⟩
    obtain ⟨s', hs', hp⟩ := h.exists_root hk o' ho' u hu
    rw [h.root_unique (by omega) hk hs hs']; exact hp
  exact ⟨⟨v, o, ho, h1⟩, fun a ha b hb => (key a ha).trans (pathIn_symm (key b hb))⟩

/-- The roots are one area per region in use. -/
theorem OrderX.sum_roots (h : OrderX adj K O x) (hO : 0 < O) {L : Labels n}
    (hL : OrderLabels K O x L) {k : Nat} (hk : k < K) :
    ∑ i, x i k 0 = if ∃ i, L i = (k : Int) then 1 else 0 := by
  split_ifs with hex
  · obtain ⟨i, hi⟩ := hex
    obtain ⟨o, ho, h1⟩ := (hL.eq_iff i hk).1 hi
    obtain ⟨s, hs, -⟩ := h.exists_root hk o ho i h1
    have h2 := h.root k hk
    have h3 : x s k 0 ≤ ∑ i, x i k 0 :=
      single_le_sum (f := fun i => x i k 0) (fun i _ => (h.x01 i k 0 hk hO).1) (mem_univ s)
    omega
  · apply sum_eq_zero
    intro i _
    by_contra hne
    have := h.x01 i k 0 hk hO
    exact hex ⟨i, (hL.eq_iff i hk).2 ⟨0, hO, by omega⟩⟩

/-- The decoding loop of `_order` and of the exact max-p method. -/
theorem OrderX.decode (h : OrderX adj K O x) {vals : Nat → Nat → Option ℚ} {i : Fin n}
    (hv : ∀ k o, k < K → o < O → vals k o = some (x i k o : ℚ)) :
    ∃ k o, k < K ∧ o < O ∧ ((List.range K).flatMap fun k => (List.range O).map fun o => (k, o)).foldl
      (fun r ko => if vals ko.1 ko.2 = some 1 then (ko.1 : Int) else r) 0 = (k : Int) ∧ x i k o = 1 ∧
      ∀ k' o', k' < K → o' < O → (k' ≠ k ∨ o' ≠ o) → x i k' o' = 0 := by
  obtain ⟨k, o, hk, ho, h1, h2⟩ := h.place i
  refine ⟨k, o, hk, ho, ?_, h1, h2⟩
  have hmem : ∀ q : Nat × Nat, q ∈ ((List.range K).flatMap fun k => (List.range O).map fun o => (k, o)) ↔
      q.1 < K ∧ q.2 < O := by
    rintro ⟨a, b⟩
    simp
  have := foldl_overwrite ((List.range K).flatMap fun k => (List.range O).map fun o => (k, o))
    (fun ko => decide (vals ko.1 ko.2 = some 1)) (fun ko => (ko.1 : Int)) (k, o)
    ((hmem _).2 ⟨hk, ho⟩) (by simp [hv k o hk ho, h1]) (by
      rintro ⟨k', o'⟩ hq ht
      obtain ⟨hk', ho'⟩ := (hmem _).1 hq
      dsimp only at hk' ho'
      simp only [hv k' o' hk' ho', Option.some.injEq, decide_eq_true_eq] at ht
      have ht : x i k' o' = 1 := by exact_mod_cast ht
      by_contra hne
      have := h2 k' o' hk' ho' (Or.inl fun he => hne (by rw [he]))
      omega) 0
  simpa using this

/-- A clustering with rooted trees written as regions and orders. -/
def placeX (L rank : Fin n → Nat) (i : Fin n) (k o : Nat) : ℤ := if L i = k ∧ rank i = o then 1 else 0

theorem sum_placeX_roots {L rank : Fin n → Nat} {root : Nat → Fin n} {par : Fin n → Fin n}
    (h : Rooted adj L root rank par) (k : Nat) :
    ∑ i, placeX L rank i k 0 = if ∃ i, L i = k then 1 else 0 := by
  split_ifs with hex
  · obtain ⟨i, rfl⟩ := hex
    rw [sum_eq_single (root (L i))]
    · unfold placeX
      rw [if_pos ⟨h.root_mem i, (h.zero _).2 (by rw [h.root_mem])⟩]
    · intro v _ hne
      unfold placeX
      rw [if_neg]
      rintro ⟨h1, h2⟩
      exact hne (by rw [(h.zero v).1 h2, h1])
    · intro hh; exact absurd (mem_univ _) hh
  · exact sum_eq_zero fun v _ => if_neg fun hh => hex ⟨v, hh.1⟩

theorem orderX_placeX {L rank : Fin n → Nat} {root : Nat → Fin n} {par : Fin n → Fin n}
    (hs : Spec.Symmetric adj) (h : Rooted adj L root rank par) (hL : ∀ i, L i < K)
    (hr : ∀ i, rank i < O) : OrderX adj K O (placeX L rank) := by
  have hnn : ∀ i k o, 0 ≤ placeX L rank i k o ∧ placeX L rank i k o ≤ 1 := by
    intro i k o; unfold placeX; split_ifs <;> simp
  refine ⟨fun i k o _ _ => hnn i k o, ?_, ?_, ?_⟩
  · intro i
    rw [sum_eq_single (L i), sum_eq_single (rank i)]
    · simp [placeX]
    · intro o _ hne
      exact if_neg fun hh => hne hh.2.symm
    · intro hh; exact absurd (mem_range.2 (hr i)) hh
    · intro k _ hne
      exact sum_eq_zero fun o _ => if_neg fun hh => hne hh.1.symm
    · intro hh; exact absurd (mem_range.2 (hL i)) hh
  · intro k _
    rw [sum_placeX_roots h k]
    split_ifs <;> simp
  · intro i k o _ _
    have hsum0 : 0 ≤ ∑ j, (if adj i j = true then placeX L rank j k o else 0) :=
      sum_nonneg fun j _ => by
        split_ifs
        · exact (hnn _ _ _).1
        · exact le_refl _
    by_cases hc : L i = k ∧ rank i = o + 1
    · have hne : i ≠ root (L i) := (h.zero i).not.1 (by omega)
      obtain ⟨h1, h2, h3⟩ := h.step i hne
      have hadj : adj i (par i) = true := by
        rcases h2 with h2 | h2
        · exact h2
        · rw [hs]; exact h2
      have h4 : (if adj i (par i) = true then placeX L rank (par i) k o else 0) ≤
          ∑ j, (if adj i j = true then placeX L rank j k o else 0) :=
        single_le_sum (f := fun j => if adj i j = true then placeX L rank j k o else 0)
          (fun j _ => by
            split_ifs
            · exact (hnn _ _ _).1
            · exact le_refl _) (mem_univ _)
      rw [if_pos hadj] at h4
      refine le_trans ?_ h4
      unfold placeX
      rw [if_pos hc, if_pos ⟨h1.trans hc.1, by omega⟩]
    · refine le_trans (le_of_eq ?_) hsum0
      unfold placeX
      rw [if_neg hc]

end

/-! ### `_order` -/

/-- The constraints of the order model over the integers. -/
structure OrderSol {n : Nat} (adj : Adj n) (p : Nat) (a : OrderVar n → ℤ) : Prop where
  t01 : ∀ i j, i < j → 0 ≤ a (.t i j) ∧ a (.t i j) ≤ 1
  x01 : ∀ i k o, k < p → o < n - p → 0 ≤ a (.x i k o) ∧ a (.x i k o) ≤ 1
  c14 : ∀ k, k < p → ∑ i, a (.x i k 0) = 1
  c15 : ∀ i, ∑ k ∈ range p, ∑ o ∈ range (n - p), a (.x i k o) = 1
  c16 : ∀ i k o, k < p → o + 1 < n - p →
    a (.x i k (o + 1)) ≤ ∑ j, if adj i j = true then a (.x j k o) else 0
  c17 : ∀ i j k, i < j → k < p →
    ∑ o ∈ range (n - p), (a (.x i k o) + a (.x j k o)) - 1 ≤ a (.t i j)

section
variable {n : Nat} {adj : Adj n} {d : Fin n → Fin n → ℚ} {p : Nat} {P : Lp (OrderVar n)}

theorem orderLp_eq (h : orderLp adj d p = .ok P) : P = ⟨orderDecls p,
    Lin.sum ((upperTriangle n).map fun e => d e.1 e.2 * Lin.var (OrderVar.t e.1 e.2)),
    order14 p ++ order15 p ++ order16 adj p ++ order17 p⟩ :=
  (Lp.build_eq_ok.1 h).1

theorem holds14 {a : OrderVar n → ℤ} :
    (∀ c ∈ order14 p, c.Holds a) ↔ ∀ k, k < p → ∑ i, a (.x i k 0) = 1 := by
  simp only [order14, List.mem_map, List.mem_range, forall_exists_index, and_imp,
    forall_apply_eq_imp_iff₂, Constr.Holds, Lin.eval_sum, Lin.eval_num, List.map_map,
    Function.comp_def, Lin.eval_var, sum_finRange]
  refine forall_congr' fun k => forall_congr' fun _ => ?_
  exact_mod_cast Iff.rfl

theorem holds15 {a : OrderVar n → ℤ} : (∀ c ∈ order15 p, c.Holds a) ↔
    ∀ i, ∑ k ∈ range p, ∑ o ∈ range (n - p), a (.x i k o) = 1 := by
  simp only [order15, List.mem_map, List.mem_finRange, true_and, forall_exists_index,
    forall_apply_eq_imp_iff, Constr.Holds, Lin.eval_sum, Lin.eval_num, sum_map_flatMap, List.map_map,
    Function.comp_def, Lin.eval_var, sum_range]
  refine forall_congr' fun i => ?_
  exact_mod_cast Iff.rfl

theorem holds16 {a : OrderVar n → ℤ} : (∀ c ∈ order16 adj p, c.Holds a) ↔
    ∀ i k o, k < p → o + 1 < n - p →
      a (.x i k (o + 1)) ≤ ∑ j, if adj i j = true then a (.x j k o) else 0 := by
  simp only [order16, List.mem_flatMap, List.mem_map, List.mem_finRange, true_and, List.mem_range,
    forall_exists_index, and_imp]
  have key : ∀ i k o, (Constr.Holds (Lin.var (OrderVar.x i k (o + 1)) ≤ₗ
        Lin.sum ((neighbors adj i).map fun j => Lin.var (OrderVar.x j k o))) a) ↔
      a (.x i k (o + 1)) ≤ ∑ j, if adj i j = true then a (.x j k o) else 0 := by
    intro i k o
    simp only [Constr.Holds, Lin.eval_var, Lin.eval_sum, List.map_map, Function.comp_def,
      sum_neighbors]
    exact_mod_cast Iff.rfl
  constructor
  · intro h i k o hk ho
    exact (key i k o).1 (h _ i k hk o (by omega) rfl)
  · rintro h _ i k hk o ho rfl
    exact (key i k o).2 (h i k o hk (by omega))

theorem holds17 {a : OrderVar n → ℤ} : (∀ c ∈ order17 p, c.Holds a) ↔
    ∀ i j k, i < j → k < p →
      ∑ o ∈ range (n - p), (a (.x i k o) + a (.x j k o)) - 1 ≤ a (.t i j) := by
  simp only [order17, List.mem_flatMap, List.mem_map, List.mem_range,
    forall_exists_index, and_imp, mem_upperTriangle]
  constructor
  · intro h i j k hij hk
    have := h _ (i, j) hij k hk rfl
    simp only [Constr.Holds, Lin.eval_var, Lin.eval_sub, Lin.eval_num, Lin.eval_sum, Lin.eval_add,
      List.map_map, Function.comp_def, sum_range, ge_iff_le] at this
    exact_mod_cast this
  · rintro h _ ⟨i, j⟩ hij k hk rfl
    simp only [Constr.Holds, Lin.eval_var, Lin.eval_sub, Lin.eval_num, Lin.eval_sum, Lin.eval_add,
      List.map_map, Function.comp_def, sum_range, ge_iff_le]
    exact_mod_cast h i j k hij hk

theorem order_feasible_iff (h : orderLp adj d p = .ok P) {a : OrderVar n → ℤ} :
    P.Feasible a ↔ OrderSol adj p a := by
  rw [orderLp_eq h]
  unfold Lp.Feasible
  simp only [List.forall_mem_append, holds14, holds15, holds16, holds17, orderDecls]
  simp only [List.mem_map, List.mem_flatMap, List.mem_finRange, true_and, List.mem_range,
    mem_upperTriangle]
  constructor
  · rintro ⟨⟨h1, h2⟩, ⟨⟨c14, c15⟩, c16⟩, c17⟩
    refine ⟨?_, ?_, c14, c15, c16, c17⟩
    · intro i j hij
      simpa using h1 _ ⟨(i, j), hij, rfl⟩
    · intro i k o hk ho
      simpa using h2 _ ⟨i, k, hk, o, ho, rfl⟩
  · rintro ⟨h1, h2, c14, c15, c16, c17⟩
    refine ⟨⟨?_, ?_⟩, ⟨⟨c14, c15⟩, c16⟩, c17⟩
    · rintro _ ⟨⟨i, j⟩, hij, rfl⟩
      simpa using h1 i j hij
    · rintro _ ⟨i, k, hk, o, ho, rfl⟩
      simpa using h2 i k o hk ho

/-- Building the order model fails with `KeyError` exactly if there is no order at all. -/
theorem orderLp_ok_iff (hp : 0 < p) (hn : 0 < n) : (∃ P, orderLp adj d p = .ok P) ↔ p < n := by
  have hx : ∀ i k o, k < p → o < n - p →
      ∃ dc ∈ orderDecls (n := n) p, dc.var = OrderVar.x i k o := fun i k o hk ho =>
    ⟨⟨.x i k o, 0, some 1⟩, by simp [orderDecls, hk, ho], rfl⟩
  have ht : ∀ i j, i < j → ∃ dc ∈ orderDecls (n := n) p, dc.var = OrderVar.t i j := fun i j hk =>
    ⟨⟨.t i j, 0, some 1⟩, by simp [orderDecls, hk, mem_upperTriangle], rfl⟩
  constructor
  · rintro ⟨P, h⟩
    have hv := (Lp.build_eq_ok.1 h).2.2
    obtain ⟨dc, hdc, hvar⟩ := hv (Lin.sum ((List.finRange n).map fun i => Lin.var (OrderVar.x i 0 0)) =ₗ
      Lin.num 1) (by simp only [order14, List.mem_append, List.mem_map, List.mem_range]
                     exact Or.inl (Or.inl (Or.inl ⟨0, hp, rfl⟩))) (OrderVar.x ⟨0, hn⟩ 0 0) (by
        simp only [Lin.vars_sum, Lin.vars_num, List.append_nil, List.mem_flatMap, List.mem_map,
          exists_exists_and_eq_and, Lin.vars_var, List.mem_singleton]
        exact ⟨⟨0, hn⟩, List.mem_finRange _, rfl⟩)
    simp only [orderDecls, List.mem_append, List.mem_map, List.mem_flatMap, List.mem_finRange,
      true_and, List.mem_range] at hdc
    rcases hdc with ⟨_, _, rfl⟩ | ⟨_, _, _, o, ho, rfl⟩
    · cases hvar
    · omega
  · intro hpn
    refine ⟨_, Lp.build_eq_ok.2 ⟨rfl, ?_, ?_⟩⟩
    · simp only [Lin.vars_sum, List.mem_flatMap, List.mem_map, exists_exists_and_eq_and,
        Lin.vars_mul, Lin.vars_var, List.mem_singleton]
      rintro _ ⟨e, he, rfl⟩
      exact ht _ _ (mem_upperTriangle.1 he)
    · intro c hc v hv
      simp only [List.mem_append] at hc
      rcases hc with ((hc | hc) | hc) | hc
      · simp only [order14, List.mem_map, List.mem_range] at hc
        obtain ⟨k, hk, rfl⟩ := hc
        simp only [Lin.vars_sum, Lin.vars_num, List.append_nil, List.mem_flatMap, List.mem_map,
          exists_exists_and_eq_and, Lin.vars_var, List.mem_singleton] at hv
        obtain ⟨i, -, rfl⟩ := hv
        exact hx i k 0 hk (by omega)
      · simp only [order15, List.mem_map] at hc
        obtain ⟨i, -, rfl⟩ := hc
        simp only [Lin.vars_sum, Lin.vars_num, List.append_nil, List.mem_flatMap, List.mem_map,
          List.mem_range] at hv
        obtain ⟨_, ⟨k, hk, o, ho, rfl⟩, hv⟩ := hv
        obtain rfl := List.mem_singleton.1 hv
        exact hx i k o hk ho
      · simp only [order16, List.mem_map, List.mem_flatMap, List.mem_range] at hc
        obtain ⟨i, -, k, hk, o, ho, rfl⟩ := hc
        simp only [Lin.vars_var, Lin.vars_sum, List.mem_append, List.mem_singleton,
          List.mem_flatMap, List.mem_map, exists_exists_and_eq_and] at hv
        rcases hv with rfl | ⟨j, -, rfl⟩
        · exact hx i k _ hk (by omega)
        · exact hx j k o hk (by omega)
      · simp only [order17, List.mem_map, List.mem_flatMap, List.mem_range, mem_upperTriangle] at hc
        obtain ⟨e, he, k, hk, rfl⟩ := hc
        simp only [Lin.vars_var, Lin.vars_sub, Lin.vars_num, Lin.vars_sum, Lin.vars_add,
          List.append_nil, List.mem_append, List.mem_singleton, List.mem_flatMap, List.mem_map,
          exists_exists_and_eq_and, List.mem_range] at hv
        rcases hv with rfl | ⟨o, ho, rfl | rfl⟩
        · exact ht _ _ he
        · exact hx _ k o hk ho
        · exact hx _ k o hk ho

theorem OrderSol.orderX {a : OrderVar n → ℤ} (h : OrderSol adj p a) :
    OrderX adj p (n - p) fun i k o => a (.x i k o) :=
  ⟨h.x01, h.c15, fun k hk => le_of_eq (h.c14 k hk), h.c16⟩

theorem OrderSol.decode {a : OrderVar n → ℤ} (h : OrderSol adj p a) {vals : OrderVar n → Option ℚ}
    (hv : ∀ i k o, k < p → o < n - p → vals (.x i k o) = some (a (.x i k o) : ℚ)) :
    OrderLabels p (n - p) (fun i k o => a (.x i k o)) (orderDecode p vals) := by
  intro i
  obtain ⟨k, o, hk, ho, h1, h2⟩ := h.orderX.decode (vals := fun k o => vals (.x i k o)) (hv i)
  exact ⟨k, o, hk, ho, h1, h2⟩

/-- Areas sharing a region pay their dissimilarity. -/
theorem OrderSol.t_ge {a : OrderVar n → ℤ} (h : OrderSol adj p a) {L : Labels n}
    (hL : OrderLabels p (n - p) (fun i k o => a (.x i k o)) L) {i j : Fin n} (hij : i < j)
    (heq : L i = L j) : 1 ≤ a (.t i j) := by
  obtain ⟨k, o, hk, ho, hi, -⟩ := hL i
  have h1 := h.c17 i j k hij hk
  rw [sum_add_distrib, hL.sum i hk, hL.sum j hk, if_pos hi, if_pos (heq ▸ hi)] at h1
  omega

theorem OrderSol.image {a : OrderVar n → ℤ} (h : OrderSol adj p a) (hpn : p < n) {L : Labels n}
    (hL : OrderLabels p (n - p) (fun i k o => a (.x i k o)) L) :
    univ.image L = (range p).image fun k : Nat => (k : Int) := by
  ext z
  simp only [mem_image, mem_univ, true_and, mem_range]
  constructor
  · rintro ⟨i, rfl⟩
    obtain ⟨k, o, hk, ho, hi, -⟩ := hL i
    exact ⟨k, hk, hi.symm⟩
  · rintro ⟨k, hk, rfl⟩
    have h1 := h.orderX.sum_roots (by omega) hL hk
    rw [h.c14 k hk] at h1
    split_ifs at h1 with h2
    · exact h2
    · cases h1

/-- The solution of the order model for a clustering. -/
def orderAssign (L rank : Fin n → Nat) : OrderVar n → ℤ
  | .t i j => if L i = L j then 1 else 0
  | .x i k o => placeX L rank i k o

theorem order_representable {L : Fin n → Nat} (hs : Spec.Symmetric adj) (hc : AllContiguous adj L)
    (hL : ∀ i, L i < p) (hsurj : ∀ k < p, ∃ i, L i = k) (hp : 0 < p) (h2 : p + 2 ≤ n) :
    ∃ a, OrderSol adj p a ∧ (∀ i k o, k < p → o < n - p → (a (.x i k o) = 1 → L i = k)) ∧
      ∀ i j, a (.t i j) = if L i = L j then 1 else 0 := by
  obtain ⟨root, rank, par, hR, hb⟩ := exists_rooted_flat (⟨0, by omega⟩ : Fin n) hc
  have hsize := sizeAt_add_le hL hsurj
  have hrank : ∀ i, rank i < n - p := by
    intro i
    have h1 := hb i
    have h3 := hsize i
    by_cases h4 : 3 ≤ sizeAt L i
    · have := h1.2 h4; omega
    · have := h1.1; omega
  have hX := orderX_placeX (K := p) (O := n - p) hs hR hL hrank
  refine ⟨orderAssign L rank, ⟨?_, ?_, ?_, ?_, ?_, ?_⟩, ?_, fun _ _ => rfl⟩
  · intro i j _; simp only [orderAssign]; split_ifs <;> simp
  · exact hX.x01
  · intro k hk
    simp only [orderAssign]
    rw [sum_placeX_roots hR, if_pos (hsurj k hk)]
  · exact hX.one
  · exact hX.link
  · intro i j k _ hk
    simp only [orderAssign]
    have key : ∀ v, ∑ o ∈ range (n - p), placeX L rank v k o = if L v = k then 1 else 0 := by
      intro v
      by_cases hv : L v = k
      · rw [if_pos hv, sum_eq_single (rank v)]
        · simp [placeX, hv]
        · intro o _ hne
          exact if_neg fun hh => hne hh.2.symm
        · intro hh; exact absurd (mem_range.2 (hrank v)) hh
      · rw [if_neg hv]
        exact sum_eq_zero fun o _ => if_neg fun hh => hv hh.1
    rw [sum_add_distrib, key, key]
    split_ifs <;> omega
  · intro i k o _ _ h1
    by_contra hne
    have : placeX L rank i k o = 0 := if_neg fun hh => hne hh.1
    have h1 : placeX L rank i k o = 1 := h1
    omega

end

end Region
