import Mathlib.Data.Finset.Dedup
import Mathlib.Data.Finset.Card
import Mathlib.Order.Basic
import Mathlib.Order.Defs.LinearOrder
import Verif.Lemmas.Csgraph
import Verif.Model.Util
/-
Lemmas about the small helpers of `util.py`.
-/
namespace Region

open Spec

section Unique
variable {α : Type} [LinearOrder α]

theorem mem_insertUniq {x y : α} {l : List α} : y ∈ insertUniq x l ↔ y = x ∨ y ∈ l := by
  induction l with
  | nil => simp [insertUniq]
  | cons z zs ih =>
    unfold insertUniq
    split_ifs with h1 h2
    · simp
    · subst h2; simp
    · simp [ih]; tauto

theorem insertUniq_sorted {x : α} {l : List α} (h : l.Pairwise (· < ·)) :
    (insertUniq x l).Pairwise (· < ·) := by
  induction l with
  | nil => simp [insertUniq]
  | cons z zs ih =>
    rw [List.pairwise_cons] at h
    unfold insertUniq
    split_ifs with h1 h2
    · rw [List.pairwise_cons]
      refine ⟨?_, List.pairwise_cons.2 h⟩
      intro a ha
      rcases List.mem_cons.1 ha with rfl | ha
      · exact h1
      · exact h1.trans (h.1 a ha)
    · exact List.pairwise_cons.2 h
    · rw [List.pairwise_cons]
      refine ⟨?_, ih h.2⟩
      intro a ha
      rcases mem_insertUniq.1 ha with rfl | ha
      · exact lt_of_le_of_ne (not_lt.1 h1) (Ne.symm h2)
      · exact h.1 a ha

theorem mem_uniqueSorted {x : α} {l : List α} : x ∈ uniqueSorted l ↔ x ∈ l := by
  unfold uniqueSorted
  induction l with
  | nil => simp
  | cons y ys ih => simp [mem_insertUniq, ih]

theorem uniqueSorted_sorted (l : List α) : (uniqueSorted l).Pairwise (· < ·) := by
  unfold uniqueSorted
  induction l with
  | nil => simp
  | cons y ys ih => exact insertUniq_sorted ih

theorem uniqueSorted_nodup (l : List α) : (uniqueSorted l).Nodup :=
  (uniqueSorted_sorted l).imp (fun h => ne_of_lt h)

theorem toFinset_uniqueSorted (l : List α) : (uniqueSorted l).toFinset = l.toFinset := by
  ext x; simp [mem_uniqueSorted]

theorem length_uniqueSorted (l : List α) : (uniqueSorted l).length = l.toFinset.card := by
  rw [← toFinset_uniqueSorted, List.toFinset_card_of_nodup (uniqueSorted_nodup l)]

end Unique

theorem mem_arrayList {n : Nat} {α : Type} {a : Fin n → α} {x : α} :
    x ∈ arrayList a ↔ ∃ i, a i = x := by
  simp [arrayList]

theorem toFinset_arrayList {n : Nat} {α : Type} [DecidableEq α] (a : Fin n → α) :
    (arrayList a).toFinset = Finset.univ.image a := by
  ext x; simp [mem_arrayList]

theorem length_unique_labels {n : Nat} {α : Type} [LinearOrder α] (labels : Fin n → α) :
    (uniqueSorted (arrayList labels)).length = numRegions labels := by
  rw [length_uniqueSorted, toFinset_arrayList]; rfl

theorem randrange_ok {k : Nat} {r : Rng} {p : Nat × Rng} (h : randrange k r = .ok p) :
    0 < k ∧ p.1 < k ∧ p.1 = r 0 % k ∧ p.2 = r.next := by
  unfold randrange at h
  split_ifs at h with hk
  · cases h
    have : 0 < k := Nat.pos_of_ne_zero hk
    exact ⟨this, Nat.mod_lt _ this, rfl, rfl⟩

theorem randrange_pos {k : Nat} (hk : 0 < k) (r : Rng) : randrange k r = .ok (r 0 % k, r.next) := by
  unfold randrange
  rw [if_neg (by omega)]

theorem randomElementFrom_ok {α : Type} {lst : List α} {r : Rng} {p : α × Rng}
    (h : randomElementFrom lst r = .ok p) : p.1 ∈ lst ∧ p.2 = r.next := by
  unfold randomElementFrom at h
  rw [Res.bind_eq_ok] at h
  obtain ⟨⟨pos, r'⟩, h1, h2⟩ := h
  obtain ⟨_, _, _, hr⟩ := randrange_ok h1
  dsimp only at h2 hr
  split at h2
  · rename_i x hx
    cases h2
    exact ⟨List.mem_of_getElem? hx, hr⟩
  · cases h2

theorem randomElementFrom_ne_nil {α : Type} {lst : List α} (hl : lst ≠ []) (r : Rng) :
    ∃ x ∈ lst, randomElementFrom lst r = .ok (x, r.next) := by
  have hpos : 0 < lst.length := List.length_pos_iff.2 hl
  have hlt : r 0 % lst.length < lst.length := Nat.mod_lt _ hpos
  refine ⟨lst[r 0 % lst.length], List.getElem_mem _, ?_⟩
  unfold randomElementFrom
  rw [randrange_pos hpos]
  simp [hlt]

theorem popRandomlyFrom_ok {α : Type} {lst : List α} {r : Rng} {p : α × List α × Rng}
    (h : popRandomlyFrom lst r = .ok p) :
    ∃ pos, ∃ hpos : pos < lst.length, p.1 = lst[pos] ∧ p.2.1 = lst.eraseIdx pos ∧
      p.2.2 = r.next := by
  unfold popRandomlyFrom at h
  rw [Res.bind_eq_ok] at h
  obtain ⟨⟨pos, r'⟩, h1, h2⟩ := h
  obtain ⟨_, hlt, _, hr⟩ := randrange_ok h1
  dsimp only at h2 hr hlt
  split at h2
  · rename_i x hx
    cases h2
    refine ⟨pos, hlt, ?_, rfl, hr⟩
    rw [List.getElem?_eq_getElem hlt] at hx
    exact (Option.some.inj hx).symm
  · cases h2

theorem popRandomlyFrom_ne_nil {α : Type} {lst : List α} (hl : lst ≠ []) (r : Rng) :
    ∃ pos, ∃ hpos : pos < lst.length,
      popRandomlyFrom lst r = .ok (lst[pos], lst.eraseIdx pos, r.next) := by
  have hpos : 0 < lst.length := List.length_pos_iff.2 hl
  have hlt : r 0 % lst.length < lst.length := Nat.mod_lt _ hpos
  refine ⟨_, hlt, ?_⟩
  unfold popRandomlyFrom
  rw [randrange_pos hpos]
  simp [hlt]

theorem count_eq {α : Type} [DecidableEq α] (arr : List α) (el : α) :
    count arr el = arr.count el := by
  unfold count uniqueCounts
  rw [List.filter_map]
  by_cases h : el ∈ arr
  · have hd : el ∈ arr.eraseDups := by simpa using h
    have hf : el ∈ arr.eraseDups.filter ((fun p : α × Nat => decide (p.1 = el)) ∘
        fun x => (x, arr.count x)) := by
      simp [List.mem_filter, hd]
    cases hl : arr.eraseDups.filter ((fun p : α × Nat => decide (p.1 = el)) ∘
        fun x => (x, arr.count x)) with
    | nil => rw [hl] at hf; cases hf
    | cons y ys =>
      have hy : y ∈ arr.eraseDups.filter ((fun p : α × Nat => decide (p.1 = el)) ∘
        fun x => (x, arr.count x)) := by rw [hl]; simp
      have : y = el := by simpa using (List.mem_filter.1 hy).2
      simp [this]
  · have hd : el ∉ arr.eraseDups := by simpa using h
    have hf : arr.eraseDups.filter ((fun p : α × Nat => decide (p.1 = el)) ∘
        fun x => (x, arr.count x)) = [] := by
      rw [List.filter_eq_nil_iff]
      intro a ha
      simp only [Function.comp_apply, decide_eq_true_eq]
      rintro rfl
      exact hd ha
    rw [hf]
    simp [List.count_eq_zero.2 h]

theorem count_arrayList {n : Nat} {α : Type} [DecidableEq α] (a : Fin n → α) (x : α) :
    (arrayList a).count x = (whereEq a x).length := by
  unfold arrayList whereEq
  rw [List.count, List.countP_map, List.countP_eq_length_filter]
  congr 1

/-- `count(labels, r) > 1` says that some area other than a given member of `r` is in `r`. -/
theorem one_lt_count_iff {n : Nat} {α : Type} [DecidableEq α] (a : Fin n → α) (v : Fin n) :
    1 < count (arrayList a) (a v) ↔ ∃ u, u ≠ v ∧ a u = a v := by
  rw [count_eq, count_arrayList]
  constructor
  · intro h
    by_contra hne
    push Not at hne
    have : ∀ x ∈ whereEq a (a v), x = v := by
      intro x hx
      by_contra hxv
      exact hne x hxv (mem_whereEq.1 hx)
    have hlen : (whereEq a (a v)).length ≤ 1 := by
      have hsub : (whereEq a (a v)) ⊆ [v] := fun x hx => by simp [this x hx]
      exact (List.Nodup.subperm (whereEq_nodup a (a v)) hsub).length_le
    omega
  · rintro ⟨u, hu, hau⟩
    have hsub : [u, v] ⊆ whereEq a (a v) := by
      intro x hx
      simp only [List.mem_cons, List.not_mem_nil, or_false] at hx
      rcases hx with rfl | rfl
      · exact mem_whereEq.2 hau
      · exact mem_whereEq.2 rfl
    have hnd : [u, v].Nodup := by simp [hu]
    exact (List.Nodup.subperm hnd hsub).length_le

theorem makeMove_eq_moved {n : Nat} (a : Fin n) (r : Int) (labels : Labels n) :
    makeMove a r labels = moved labels a r := rfl

theorem scatter_mem {n : Nat} {idx : List (Fin n)} (hn : idx.Nodup) (vals : Fin idx.length → Int)
    (base : Labels n) (i : Fin idx.length) : scatter idx vals base (idx.get i) = vals i := by
  unfold scatter
  have h : idx.idxOf (idx.get i) = i.val := by
    simpa using hn.idxOf_getElem i.val i.isLt
  have hlt : idx.idxOf (idx.get i) < idx.length := by rw [h]; exact i.isLt
  rw [dif_pos hlt]
  congr 1
  exact Fin.ext h

theorem scatter_not_mem {n : Nat} {idx : List (Fin n)} (vals : Fin idx.length → Int)
    (base : Labels n) {v : Fin n} (hv : v ∉ idx) : scatter idx vals base v = base v := by
  unfold scatter
  rw [dif_neg]
  rw [List.idxOf_lt_length_iff]
  exact hv

theorem assertLoop_ok_iff {n : Nat} (solution : Labels n) (adj : Adj n) (rs : List Int) :
    assertLoop solution adj rs = .ok () ↔ ∀ r ∈ rs, Contiguous adj (regionOf solution r) := by
  induction rs with
  | nil => simp [assertLoop]
  | cons r rs ih =>
    unfold assertLoop
    split_ifs with h
    · rw [ih]
      simp [(isConnected_subAdj_whereEq adj solution r).1 h]
    · simp only [List.mem_cons, forall_eq_or_imp, false_iff, not_and]
      intro hc
      exact absurd ((isConnected_subAdj_whereEq adj solution r).2 hc) h

theorem assertLoop_cases {n : Nat} (solution : Labels n) (adj : Adj n) (rs : List Int) :
    assertLoop solution adj rs = .ok () ∨ ∃ m, assertLoop solution adj rs = .raise (.valueError m) := by
  induction rs with
  | nil => exact Or.inl rfl
  | cons r rs ih =>
    unfold assertLoop
    split_ifs with h
    · exact ih
    · exact Or.inr ⟨_, rfl⟩

theorem allContiguous_iff {n : Nat} (adj : Adj n) (labels : Labels n) :
    (∀ r ∈ uniqueSorted (arrayList labels), Contiguous adj (regionOf labels r)) ↔
      AllContiguous adj labels := by
  simp only [mem_uniqueSorted, mem_arrayList, AllContiguous]
  constructor
  · intro h v; exact h _ ⟨v, rfl⟩
  · rintro h r ⟨v, rfl⟩; exact h v

end Region
