import Mathlib.Algebra.BigOperators.Ring.Finset
import Mathlib.Algebra.BigOperators.Fin
import Mathlib.Data.Finset.Prod
import Mathlib.Tactic.Ring
import Mathlib.Tactic.Linarith
import Verif.Model.Objective
import Verif.Lemmas.Util
/-
Lemmas about the objective functions.
-/
namespace Region

open Spec

theorem mem_combinations2 {α : Type} [LinearOrder α] {l : List α} (hl : l.Pairwise (· < ·))
    {p : α × α} : p ∈ combinations2 l ↔ p.1 ∈ l ∧ p.2 ∈ l ∧ p.1 < p.2 := by
  induction l with
  | nil => simp [combinations2]
  | cons x xs ih =>
    rw [List.pairwise_cons] at hl
    unfold combinations2
    rw [List.mem_append, ih hl.2]
    obtain ⟨a, b⟩ := p
    simp only [List.mem_map, Prod.mk.injEq, List.mem_cons]
    constructor
    · rintro (⟨y, hy, rfl, rfl⟩ | ⟨h1, h2, h3⟩)
      · exact ⟨.inl rfl, .inr hy, hl.1 _ hy⟩
      · exact ⟨.inr h1, .inr h2, h3⟩
    · rintro ⟨h1 | h1, h2 | h2, h3⟩
      · subst h1; subst h2; exact absurd h3 (lt_irrefl _)
      · subst h1; exact .inl ⟨b, h2, rfl, rfl⟩
      · subst h2; exact absurd (hl.1 _ h1) (not_lt.2 h3.le)
      · exact .inr ⟨h1, h2, h3⟩

theorem combinations2_nodup {α : Type} {l : List α} (hl : l.Nodup) : (combinations2 l).Nodup := by
  induction l with
  | nil => simp [combinations2]
  | cons x xs ih =>
    rw [List.nodup_cons] at hl
    unfold combinations2
    rw [List.nodup_append]
    refine ⟨hl.2.map (fun a b h => (Prod.mk.inj h).2), ih hl.2, ?_⟩
    intro p hp q hq hpq
    subst hpq
    obtain ⟨y, _, rfl⟩ := List.mem_map.1 hp
    have : ∀ {l : List α} {p : α × α}, p ∈ combinations2 l → p.1 ∈ l := by
      intro l
      induction l with
      | nil => simp [combinations2]
      | cons z zs ihz =>
        intro p hp
        unfold combinations2 at hp
        rcases List.mem_append.1 hp with hp | hp
        · obtain ⟨y, _, rfl⟩ := List.mem_map.1 hp; simp
        · exact List.mem_cons_of_mem _ (ihz hp)
    exact hl.1 (this hq)

theorem whereEq_sorted {n : Nat} {α : Type} [DecidableEq α] (labels : Fin n → α) (r : α) :
    (whereEq labels r).Pairwise (· < ·) := (List.pairwise_lt_finRange n).filter _

theorem toFinset_whereEq {n : Nat} {α : Type} [DecidableEq α] (labels : Fin n → α) (r : α) :
    (whereEq labels r).toFinset = Finset.univ.filter fun i => labels i = r := by
  ext i; simp [mem_whereEq]

theorem sum_map_whereEq {n : Nat} {α : Type} [DecidableEq α] (labels : Fin n → α) (r : α)
    (f : Fin n → ℚ) :
    ((whereEq labels r).map f).sum = ∑ i ∈ Finset.univ.filter (fun i => labels i = r), f i := by
  rw [← toFinset_whereEq, List.sum_toFinset _ (whereEq_nodup labels r)]

theorem sum_flatMap {α : Type} (l : List α) (f : α → List ℚ) :
    (l.flatMap f).sum = (l.map fun x => (f x).sum).sum := by
  induction l with
  | nil => simp
  | cons x xs ih => simp [List.flatMap_cons, ih]

theorem pairwiseCall_eq {ρ : Type} (metric : ρ → ρ → ℚ) {k : Nat} (labels : Labels k)
    (attr : Fin k → ρ) :
    pairwiseCall metric labels attr = withinPairs labels fun i j => metric (attr i) (attr j) := by
  unfold pairwiseCall withinPairs
  rw [sum_flatMap, ← List.sum_toFinset _ (uniqueSorted_nodup _), toFinset_uniqueSorted,
    toFinset_arrayList]
  rw [← Finset.sum_fiberwise_of_maps_to (t := Finset.univ.image labels)
    (g := fun p : Fin k × Fin k => labels p.1) (by intro p _; simp)]
  apply Finset.sum_congr rfl
  intro r _
  rw [← List.sum_toFinset _ (combinations2_nodup (whereEq_nodup labels r))]
  apply Finset.sum_congr _ (fun _ _ => rfl)
  ext p
  simp only [List.mem_toFinset, mem_combinations2 (whereEq_sorted labels r), mem_whereEq,
    Finset.mem_filter, Finset.mem_univ, true_and]
  constructor
  · rintro ⟨h1, h2, h3⟩; exact ⟨⟨h3, h1.trans h2.symm⟩, h1⟩
  · rintro ⟨⟨h1, h2⟩, h3⟩; exact ⟨h3, h2 ▸ h3, h1⟩

/-- Twice the objective is the sum over all ordered pairs. -/
theorem two_mul_withinPairs {k : Nat} (labels : Labels k) (d : Fin k → Fin k → ℚ)
    (hs : ∀ i j, d i j = d j i) (h0 : ∀ i, d i i = 0) :
    2 * withinPairs labels d = ∑ i, ∑ j, if labels i = labels j then d i j else 0 := by
  have key : ∀ i j : Fin k, (if labels i = labels j then d i j else 0) =
      (if i < j ∧ labels i = labels j then d i j else 0) +
      (if j < i ∧ labels j = labels i then d j i else 0) := by
    intro i j
    rcases lt_trichotomy i j with h | h | h
    · simp [h, not_lt.2 h.le]
    · subst h; simp [h0]
    · simp [h, not_lt.2 h.le, eq_comm, hs i j]
  simp_rw [key, Finset.sum_add_distrib]
  rw [Finset.sum_comm (f := fun i j => if j < i ∧ labels j = labels i then d j i else 0)]
  have : withinPairs labels d =
      ∑ i, ∑ j, if i < j ∧ labels i = labels j then d i j else 0 := by
    unfold withinPairs
    rw [Finset.sum_filter, ← Finset.univ_product_univ, Finset.sum_product]
  rw [this]; ring

theorem withinPairs_moved {k : Nat} (labels : Labels k) (d : Fin k → Fin k → ℚ)
    (hs : ∀ i j, d i j = d j i) (h0 : ∀ i, d i i = 0) (a : Fin k) (r : Int) :
    withinPairs (moved labels a r) d = withinPairs labels d +
      ((∑ i ∈ Finset.univ.filter (fun i => labels i = r), d i a) -
        ∑ i ∈ Finset.univ.filter (fun i => labels i = labels a), d i a) := by
  have h2 : ∀ lab : Labels k, 2 * withinPairs lab d =
      (∑ i ∈ Finset.univ.erase a, ∑ j ∈ Finset.univ.erase a,
        if lab i = lab j then d i j else 0) +
      2 * ∑ i ∈ Finset.univ.erase a, if lab i = lab a then d i a else 0 := by
    intro lab
    rw [two_mul_withinPairs lab d hs h0]
    rw [← Finset.add_sum_erase _ _ (Finset.mem_univ a)]
    rw [← Finset.add_sum_erase _ _ (Finset.mem_univ a)]
    simp only [if_true, h0, zero_add]
    have : ∀ i ∈ Finset.univ.erase a, (∑ j, if lab i = lab j then d i j else 0) =
        (if lab i = lab a then d i a else 0) +
          ∑ j ∈ Finset.univ.erase a, if lab i = lab j then d i j else 0 := by
      intro i _
      rw [← Finset.add_sum_erase _ _ (Finset.mem_univ a)]
    rw [Finset.sum_congr rfl this, Finset.sum_add_distrib]
    have : ∀ i, (if lab a = lab i then d a i else 0) = if lab i = lab a then d i a else 0 := by
      intro i; rw [hs a i]; simp [eq_comm]
    simp_rw [this]
    ring
  have e1 := h2 labels
  have e2 := h2 (moved labels a r)
  have e3 : (∑ i ∈ Finset.univ.erase a, ∑ j ∈ Finset.univ.erase a,
        if moved labels a r i = moved labels a r j then d i j else 0) =
      ∑ i ∈ Finset.univ.erase a, ∑ j ∈ Finset.univ.erase a,
        if labels i = labels j then d i j else 0 := by
    apply Finset.sum_congr rfl; intro i hi
    apply Finset.sum_congr rfl; intro j hj
    have hi := (Finset.mem_erase.1 hi).1
    have hj := (Finset.mem_erase.1 hj).1
    simp [moved, hi, hj]
  have e4 : (∑ i ∈ Finset.univ.erase a,
        if moved labels a r i = moved labels a r a then d i a else 0) =
      ∑ i ∈ Finset.univ.filter (fun i => labels i = r), d i a := by
    rw [Finset.sum_filter, ← Finset.add_sum_erase _ _ (Finset.mem_univ a)]
    simp only [h0, ite_self, zero_add]
    apply Finset.sum_congr rfl; intro i hi
    have hi := (Finset.mem_erase.1 hi).1
    simp [moved, hi]
  have e5 : (∑ i ∈ Finset.univ.erase a, if labels i = labels a then d i a else 0) =
      ∑ i ∈ Finset.univ.filter (fun i => labels i = labels a), d i a := by
    rw [Finset.sum_filter, ← Finset.add_sum_erase _ _ (Finset.mem_univ a)]
    simp only [h0, if_true, zero_add]
  rw [e3, e4] at e2
  rw [e5] at e1
  linarith

theorem whereEq_eq_nil {n : Nat} {labels : Labels n} {r : Int} :
    whereEq labels r = [] ↔ ∀ i, labels i ≠ r := by
  rw [List.eq_nil_iff_forall_not_mem]; simp [mem_whereEq]

theorem pairwiseUpdate_eq {ρ : Type} (metric : ρ → ρ → ℚ) {k : Nat} (a : Fin k) (r : Int)
    (labels : Labels k) (attr : Fin k → ρ) :
    pairwiseUpdate metric a r labels attr =
      if ∃ i, labels i = r then
        some ((∑ i ∈ Finset.univ.filter (fun i => labels i = r), metric (attr i) (attr a)) -
          ∑ i ∈ Finset.univ.filter (fun i => labels i = labels a), metric (attr i) (attr a))
      else none := by
  unfold pairwiseUpdate distancesTo
  have h1 : whereEq labels (labels a) ≠ [] := by
    rw [Ne, whereEq_eq_nil]; push Not; exact ⟨a, rfl⟩
  rw [if_neg h1]
  by_cases h : ∃ i, labels i = r
  · have h2 : whereEq labels r ≠ [] := by rw [Ne, whereEq_eq_nil]; push Not; exact h
    rw [if_neg h2, if_pos h]
    simp [sum_map_whereEq]
  · have h2 : whereEq labels r = [] := by
      rw [whereEq_eq_nil]; intro i hi; exact h ⟨i, hi⟩
    rw [if_pos h2, if_neg h]
    simp

/-! ### The center objective -/

section Center
variable {ρ : Type} (metric : ρ → ρ → ℚ) (center : List ρ → ρ) (reduction : List ℚ → ℚ)

theorem intraregional_congr {k : Nat} {labels labels' : Labels k} {r : Int} {attr : Fin k → ρ}
    (h : ∀ i, labels i = r ↔ labels' i = r) :
    intraregional metric center reduction labels r attr =
      intraregional metric center reduction labels' r attr := by
  have : whereEq labels r = whereEq labels' r := by
    unfold whereEq; apply List.filter_congr; intro i _; simp [h]
  unfold intraregional; rw [this]

theorem intraregional_isSome {k : Nat} {labels : Labels k} {r : Int} {attr : Fin k → ρ} :
    (∃ v, intraregional metric center reduction labels r attr = some v) ↔
      ∃ i, labels i = r := by
  unfold intraregional
  dsimp only
  by_cases h : whereEq labels r = []
  · rw [h]; simp only [List.map_nil, if_true]
    rw [whereEq_eq_nil] at h
    constructor
    · rintro ⟨v, hv⟩; cases hv
    · rintro ⟨i, hi⟩; exact absurd hi (h i)
  · rw [if_neg (by simpa using h)]
    rw [whereEq_eq_nil] at h; push Not at h
    simp [h]

theorem centerCall_sum {k : Nat} (labels : Labels k) (attr : Fin k → ρ) :
    centerCall metric center List.sum labels attr =
      ∑ r ∈ Finset.univ.image labels,
        (intraregional metric center List.sum labels r attr).getD 0 := by
  unfold centerCall
  rw [← List.sum_toFinset _ (uniqueSorted_nodup _), toFinset_uniqueSorted, toFinset_arrayList]

theorem centerUpdate_some {k : Nat} {a : Fin k} {r : Int} {labels : Labels k} {attr : Fin k → ρ} :
    (∃ v, (centerUpdate metric center reduction a r labels attr).1 = some v) ↔
      (∃ i, labels i = r) ∧ (∃ i, moved labels a r i = labels a) := by
  have hd : ∃ v, intraregional metric center reduction labels (labels a) attr = some v :=
    (intraregional_isSome metric center reduction).2 ⟨a, rfl⟩
  obtain ⟨d, hd⟩ := hd
  have hr' : ∃ v, intraregional metric center reduction (makeMove a r labels) r attr = some v :=
    (intraregional_isSome metric center reduction).2 ⟨a, by simp [makeMove]⟩
  obtain ⟨r', hr'⟩ := hr'
  rw [← intraregional_isSome metric center reduction (attr := attr),
    ← intraregional_isSome metric center reduction (attr := attr)]
  unfold centerUpdate
  dsimp only
  rw [hd, hr', makeMove_eq_moved]
  cases intraregional metric center reduction labels r attr <;>
    cases intraregional metric center reduction (moved labels a r) (labels a) attr <;> simp

theorem centerUpdate_labels {k : Nat} {a : Fin k} {r : Int} {labels : Labels k} {attr : Fin k → ρ}
    {v : ℚ} (h : (centerUpdate metric center reduction a r labels attr).1 = some v) :
    (centerUpdate metric center reduction a r labels attr).2 = labels := by
  unfold centerUpdate at h ⊢
  dsimp only at h ⊢
  split at h
  · split at h
    · dsimp only
      funext i; unfold makeMove; split_ifs with hi <;> simp [hi]
    · cases h
  · cases h

theorem centerUpdate_exact {k : Nat} {a : Fin k} {r : Int} {labels : Labels k} {attr : Fin k → ρ}
    {v : ℚ} (h : (centerUpdate metric center List.sum a r labels attr).1 = some v) :
    centerCall metric center List.sum (moved labels a r) attr =
      centerCall metric center List.sum labels attr + v := by
  obtain ⟨⟨i, hi⟩, ⟨j, hj⟩⟩ := (centerUpdate_some metric center List.sum).1 ⟨v, h⟩
  have himg : Finset.univ.image (moved labels a r) = Finset.univ.image labels := by
    ext x
    simp only [Finset.mem_image, Finset.mem_univ, true_and]
    constructor
    · rintro ⟨y, rfl⟩
      by_cases hy : y = a
      · exact ⟨i, by simp [moved, hy, hi]⟩
      · exact ⟨y, by simp [moved, hy]⟩
    · rintro ⟨y, rfl⟩
      by_cases hy : y = a
      · exact ⟨j, by rw [hj, hy]⟩
      · exact ⟨y, by simp [moved, hy]⟩
  rw [centerCall_sum, centerCall_sum, himg]
  by_cases har : labels a = r
  · have hm : moved labels a r = labels := by
      funext x; unfold moved; split_ifs with hx
      · rw [hx, har]
      · rfl
    rw [hm]
    unfold centerUpdate at h
    dsimp only at h
    rw [makeMove_eq_moved, hm] at h
    split at h
    · rename_i d1 d2 e1 e2
      rw [har] at e1 h
      cases h; simp
    · cases h
  · have hmem1 : labels a ∈ Finset.univ.image labels := by simp
    have hmem2 : r ∈ (Finset.univ.image labels).erase (labels a) := by
      simp only [Finset.mem_erase, Finset.mem_image, Finset.mem_univ, true_and]
      exact ⟨Ne.symm har, i, hi⟩
    rw [← Finset.add_sum_erase _ _ hmem1, ← Finset.add_sum_erase _ _ hmem2,
      ← Finset.add_sum_erase _ _ hmem1, ← Finset.add_sum_erase _ _ hmem2]
    have hrest : (∑ x ∈ ((Finset.univ.image labels).erase (labels a)).erase r,
          (intraregional metric center List.sum (moved labels a r) x attr).getD 0) =
        ∑ x ∈ ((Finset.univ.image labels).erase (labels a)).erase r,
          (intraregional metric center List.sum labels x attr).getD 0 := by
      apply Finset.sum_congr rfl
      intro x hx
      rw [Finset.mem_erase, Finset.mem_erase] at hx
      rw [intraregional_congr]
      intro y
      unfold moved
      split_ifs with hy
      · subst hy
        exact ⟨fun h => absurd h.symm hx.1, fun h => absurd h.symm hx.2.1⟩
      · rfl
    rw [hrest]
    unfold centerUpdate at h
    dsimp only at h
    rw [makeMove_eq_moved] at h
    split at h
    · rename_i d1 d2 e1 e2
      split at h
      · rename_i d3 d4 e3 e4
        cases h
        rw [e1, e2, e3, e4]
        simp only [Option.getD_some, List.sum_cons, List.sum_nil]
        ring
      · cases h
    · cases h

end Center

/-- `update` is the exact change of the objective whenever it returns a value. -/
def Objective.Exact {ρ : Type} (obj : Objective ρ) : Prop :=
  ∀ {k : Nat} (a : Fin k) (r : Int) (labels : Labels k) (attr : Fin k → ρ) (v : ℚ),
    obj.update a r labels attr = some v →
      obj.call (moved labels a r) attr = obj.call labels attr + v

/-- `update` does not raise for a move between two regions that both stay non-empty. -/
def Objective.Total {ρ : Type} (obj : Objective ρ) : Prop :=
  ∀ {k : Nat} (a : Fin k) (r : Int) (labels : Labels k) (attr : Fin k → ρ),
    (∃ i, labels i = r) → (∃ i, i ≠ a ∧ labels i = labels a) →
      ∃ v, obj.update a r labels attr = some v

theorem pairwise_exact {ρ : Type} {metric : ρ → ρ → ℚ} (hs : ∀ x y, metric x y = metric y x)
    (h0 : ∀ x, metric x x = 0) : (pairwise metric).Exact := by
  intro k a r labels attr v h
  change pairwiseUpdate metric a r labels attr = some v at h
  change pairwiseCall metric _ attr = pairwiseCall metric _ attr + v
  rw [pairwiseUpdate_eq] at h
  split_ifs at h with hr
  cases h
  rw [pairwiseCall_eq, pairwiseCall_eq,
    withinPairs_moved labels _ (fun _ _ => hs _ _) (fun _ => h0 _)]

theorem pairwise_total {ρ : Type} (metric : ρ → ρ → ℚ) : (pairwise metric).Total := by
  intro k a r labels attr hr _
  change ∃ v, pairwiseUpdate metric a r labels attr = some v
  rw [pairwiseUpdate_eq, if_pos hr]
  exact ⟨_, rfl⟩

theorem centered_sum_exact {ρ : Type} (metric : ρ → ρ → ℚ) (center : List ρ → ρ) :
    (centered metric center List.sum).Exact :=
  fun _ _ _ _ _ h => centerUpdate_exact metric center h

theorem centered_total {ρ : Type} (metric : ρ → ρ → ℚ) (center : List ρ → ρ)
    (reduction : List ℚ → ℚ) : (centered metric center reduction).Total := by
  rintro k a r labels attr hr ⟨i, hi, hia⟩
  exact (centerUpdate_some metric center reduction).2 ⟨hr, i, by simp [moved, hi, hia]⟩

end Region
