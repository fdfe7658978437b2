import Mathlib.Algebra.BigOperators.Fin
import Mathlib.Algebra.BigOperators.Group.Finset.Basic
import Mathlib.Algebra.Order.BigOperators.Group.Finset
import Mathlib.Tactic.Ring
import Mathlib.Tactic.Linarith
import Verif.Lemmas.Csgraph
import Verif.Model.PRegionsExact
/-
Evaluating affine expressions; sums over lists of areas and regions as finite sums.
-/
namespace Region

open Spec

namespace Lin
variable {V : Type}

@[simp] theorem eval_var (v : V) (a : V → ℤ) : (var v).eval a = a v := by simp [eval, var]
@[simp] theorem eval_num (c : ℚ) (a : V → ℤ) : (num c : Lin V).eval a = c := by simp [eval, num]

@[simp] theorem eval_add (x y : Lin V) (a : V → ℤ) : (x + y).eval a = x.eval a + y.eval a := by
  show eval ⟨x.terms ++ y.terms, x.const + y.const⟩ a = _
  simp only [eval, List.map_append, List.sum_append]
  ring

@[simp] theorem eval_mul (c : ℚ) (x : Lin V) (a : V → ℤ) : (c * x : Lin V).eval a = c * x.eval a := by
  show eval (scale c x) a = _
  simp only [eval, scale, List.map_map, mul_add, ← List.sum_map_mul_left]
  congr 2
  apply List.map_congr_left
  intro p _
  simp only [Function.comp]
  ring

@[simp] theorem eval_sub (x y : Lin V) (a : V → ℤ) : (x - y).eval a = x.eval a - y.eval a := by
  show (x + (-1 : ℚ) * y : Lin V).eval a = _
  rw [eval_add, eval_mul]; ring

@[simp] theorem eval_sum (l : List (Lin V)) (a : V → ℤ) :
    (sum l).eval a = (l.map fun e => e.eval a).sum := by
  induction l with
  | nil => exact eval_num 0 a
  | cons e l ih =>
    show (e + sum l).eval a = _
    rw [eval_add, ih]; simp

/-- The variables of an expression. -/
def vars (e : Lin V) : List V := e.terms.map Prod.snd

@[simp] theorem vars_var (v : V) : (var v).vars = [v] := rfl
@[simp] theorem vars_num (c : ℚ) : (num c : Lin V).vars = [] := rfl
@[simp] theorem vars_add (x y : Lin V) : (x + y).vars = x.vars ++ y.vars := List.map_append
@[simp] theorem vars_mul (c : ℚ) (x : Lin V) : (c * x : Lin V).vars = x.vars := by
  show List.map Prod.snd (scale c x).terms = _
  simp [scale, vars]
@[simp] theorem vars_sub (x y : Lin V) : (x - y).vars = x.vars ++ y.vars := by
  show (x + (-1 : ℚ) * y : Lin V).vars = _
  rw [vars_add, vars_mul]
@[simp] theorem vars_sum (l : List (Lin V)) : (sum l).vars = l.flatMap vars := by
  induction l with
  | nil => rfl
  | cons e l ih =>
    show (e + sum l).vars = _
    rw [vars_add, ih]; simp

end Lin

theorem Constr.vars_eq {V : Type} (c : Constr V) : c.vars = c.lhs.vars ++ c.rhs.vars := rfl

theorem sum_finRange {n : Nat} {M : Type} [AddCommMonoid M] (f : Fin n → M) :
    ((List.finRange n).map f).sum = ∑ i, f i := by
  rw [Fin.sum_univ_def]

theorem sum_range {M : Type} [AddCommMonoid M] (p : Nat) (f : Nat → M) :
    ((List.range p).map f).sum = ∑ k ∈ Finset.range p, f k := by
  induction p with
  | zero => simp
  | succ p ih => rw [List.range_succ, List.map_append, List.sum_append, ih, Finset.sum_range_succ]; simp

theorem sum_filter_finRange {n : Nat} {M : Type} [AddCommMonoid M] (b : Fin n → Bool) (f : Fin n → M) :
    (((List.finRange n).filter b).map f).sum = ∑ i, if b i = true then f i else 0 := by
  rw [← sum_finRange]
  induction List.finRange n with
  | nil => simp
  | cons x l ih => by_cases h : b x = true <;> simp [h, ih]

theorem sum_neighbors {n : Nat} {M : Type} [AddCommMonoid M] (adj : Adj n) (i : Fin n) (f : Fin n → M) :
    ((neighbors adj i).map f).sum = ∑ j, if adj i j = true then f j else 0 :=
  sum_filter_finRange _ f

theorem sum_map_flatMap {α β M : Type} [AddCommMonoid M] (l : List α) (g : α → List β) (f : β → M) :
    ((l.flatMap g).map f).sum = (l.map fun x => ((g x).map f).sum).sum := by
  induction l with
  | nil => simp
  | cons x l ih => simp [ih]

theorem mem_upperTriangle {n : Nat} {e : Fin n × Fin n} : e ∈ upperTriangle n ↔ e.1 < e.2 := by
  obtain ⟨i, j⟩ := e
  simp [upperTriangle]

theorem mem_allPairs {n : Nat} (e : Fin n × Fin n) : e ∈ allPairs n := by
  obtain ⟨i, j⟩ := e
  simp [allPairs]

theorem upperTriangle_nodup (n : Nat) : (upperTriangle n).Nodup := by
  unfold upperTriangle
  rw [List.nodup_flatMap]
  constructor
  · intro i _
    exact ((List.nodup_finRange n).filter _).map fun a b h => (Prod.ext_iff.1 h).2
  · refine (List.nodup_finRange n).imp ?_
    intro i j hij e h1 h2
    obtain ⟨_, _, rfl⟩ := List.mem_map.1 h1
    obtain ⟨_, _, h⟩ := List.mem_map.1 h2
    exact hij (Prod.ext_iff.1 h).1.symm

theorem sum_upperTriangle {n : Nat} (f : Fin n × Fin n → ℚ) :
    ((upperTriangle n).map f).sum =
      ∑ e ∈ Finset.univ.filter (fun e : Fin n × Fin n => e.1 < e.2), f e := by
  rw [← List.sum_toFinset f (upperTriangle_nodup n)]
  congr 1
  ext e
  simp [mem_upperTriangle]

theorem Lp.build_eq_ok {V : Type} [DecidableEq V] {ds : List (Decl V)} {ob : Lin V}
    {cs : List (Constr V)} {P : Lp V} :
    Lp.build ds ob cs = .ok P ↔ P = ⟨ds, ob, cs⟩ ∧
      (∀ v ∈ ob.vars, ∃ d ∈ ds, d.var = v) ∧
      ∀ c ∈ cs, ∀ v ∈ c.lhs.vars ++ c.rhs.vars, ∃ d ∈ ds, d.var = v := by
  unfold Lp.build
  dsimp only
  split_ifs with h
  · simp only [Res.ok.injEq]
    simp only [List.all_eq_true, List.mem_append, List.mem_map, List.mem_flatMap,
      List.contains_iff_mem] at h
    constructor
    · rintro rfl
      exact ⟨rfl, fun v hv => h _ (Or.inl (List.mem_map.1 hv)),
        fun c hc v hv => h v (Or.inr ⟨c, hc, hv⟩)⟩
    · exact fun h => h.1.symm
  · refine iff_of_false (by simp) ?_
    rintro ⟨-, h1, h2⟩
    apply h
    simp only [List.all_eq_true, List.mem_append, List.mem_map, List.mem_flatMap,
      List.contains_iff_mem]
    rintro v (⟨t, ht, rfl⟩ | ⟨c, hc, hv⟩)
    · exact h1 _ (List.mem_map_of_mem ht)
    · exact h2 c hc v hv

theorem Lp.build_raise {V : Type} [DecidableEq V] (ds : List (Decl V)) (ob : Lin V)
    (cs : List (Constr V)) :
    (∃ P, Lp.build ds ob cs = .ok P) ∨ Lp.build ds ob cs = .raise .keyError := by
  unfold Lp.build
  dsimp only
  split_ifs
  · exact Or.inl ⟨_, rfl⟩
  · exact Or.inr rfl

/-- The objective of the three models. -/
theorem eval_objective {V : Type} {n : Nat} (d : Fin n → Fin n → ℚ) (t : Fin n → Fin n → V)
    (a : V → ℤ) :
    (Lin.sum ((upperTriangle n).map fun e => d e.1 e.2 * Lin.var (t e.1 e.2))).eval a =
      ∑ e ∈ Finset.univ.filter (fun e : Fin n × Fin n => e.1 < e.2), d e.1 e.2 * (a (t e.1 e.2) : ℚ) := by
  rw [Lin.eval_sum, List.map_map, ← sum_upperTriangle]
  congr 1
  apply List.map_congr_left
  intro e _
  simp

theorem withinPairs_eq {n : Nat} {L : Type} [DecidableEq L] (labels : Fin n → L)
    (d : Fin n → Fin n → ℚ) : withinPairs labels d =
      ∑ e ∈ Finset.univ.filter (fun e : Fin n × Fin n => e.1 < e.2),
        d e.1 e.2 * (if labels e.1 = labels e.2 then 1 else 0 : ℚ) := by
  unfold withinPairs
  rw [← Finset.filter_filter, Finset.sum_filter]
  refine Finset.sum_congr rfl fun e _ => ?_
  split_ifs <;> simp

/-- If `t` is at least the indicator of sharing a region, the objective is at least the within-region
dissimilarity. -/
theorem withinPairs_le {n : Nat} {L : Type} [DecidableEq L] (labels : Fin n → L)
    {d : Fin n → Fin n → ℚ} (hd : ∀ i j, i < j → 0 ≤ d i j) (t : Fin n → Fin n → ℤ)
    (ht : ∀ i j, i < j → 0 ≤ t i j) (hl : ∀ i j, i < j → labels i = labels j → 1 ≤ t i j) :
    withinPairs labels d ≤
      ∑ e ∈ Finset.univ.filter (fun e : Fin n × Fin n => e.1 < e.2), d e.1 e.2 * (t e.1 e.2 : ℚ) := by
  rw [withinPairs_eq]
  refine Finset.sum_le_sum fun e he => ?_
  have he' : e.1 < e.2 := by simpa using he
  refine mul_le_mul_of_nonneg_left ?_ (hd _ _ he')
  split_ifs with h
  · exact_mod_cast hl _ _ he' h
  · exact_mod_cast ht _ _ he'

/-- Exactly one of some zero-one values adding up to one is one. -/
theorem exists_one_of_sum_eq_one {ι : Type} [DecidableEq ι] (s : Finset ι) (f : ι → ℤ)
    (h01 : ∀ i ∈ s, 0 ≤ f i ∧ f i ≤ 1) (h : ∑ i ∈ s, f i = 1) :
    ∃ i ∈ s, f i = 1 ∧ ∀ j ∈ s, j ≠ i → f j = 0 := by
  have h1 : ∃ i ∈ s, f i ≠ 0 := by
    by_contra hne
    push Not at hne
    rw [Finset.sum_eq_zero hne] at h
    cases h
  obtain ⟨i, hi, hfi⟩ := h1
  have hi1 : f i = 1 := by have := h01 i hi; omega
  refine ⟨i, hi, hi1, ?_⟩
  rw [← Finset.add_sum_erase s f hi, hi1] at h
  have h0 : ∑ j ∈ s.erase i, f j = 0 := by omega
  have := (Finset.sum_eq_zero_iff_of_nonneg (fun j hj => (h01 j (Finset.mem_of_mem_erase hj)).1)).1 h0
  exact fun j hj hji => this j (Finset.mem_erase.2 ⟨hji, hj⟩)

/-- The result of a loop that overwrites its result whenever a test succeeds, if all successes
write the same. -/
theorem foldl_overwrite {α β : Type} (l : List α) (t : α → Bool) (g : α → β) (x : α) (hx : x ∈ l)
    (ht : t x = true) (hu : ∀ y ∈ l, t y = true → g y = g x) (r : β) :
    l.foldl (fun r y => if t y = true then g y else r) r = g x := by
  have key : ∀ (l : List α) (r : β), (∀ y ∈ l, t y = true → g y = g x) →
      ((∃ y ∈ l, t y = true) ∨ r = g x) →
      l.foldl (fun r y => if t y = true then g y else r) r = g x := by
    intro l
    induction l with
    | nil => rintro r - (⟨y, hy, -⟩ | h); · cases hy
             · exact h
    | cons z l ih =>
      intro r hu hor
      rw [List.foldl_cons]
      refine ih _ (fun y hy => hu y (List.mem_cons_of_mem _ hy)) ?_
      by_cases hz : t z = true
      · right; rw [if_pos hz]; exact hu z (by simp) hz
      · rw [if_neg hz]
        rcases hor with ⟨y, hy, hty⟩ | h
        · rcases List.mem_cons.1 hy with rfl | hy
          · exact absurd hty hz
          · exact Or.inl ⟨y, hy, hty⟩
        · exact Or.inr h
  exact key l r hu (Or.inl ⟨x, hx, ht⟩)

end Region
