import Verif.Lemmas.Masks
import Verif.Model.TestData
import Verif.Props.ExactResults
import Verif.Props.TabuDescent
import Verif.SpecNames
/-
The clusterings of the nine areas of the tests into two regions: exactly one is locally optimal.
-/
namespace Region

open Spec

/-! ### Sums without ties -/

/-- No sum of some of the numbers, with signs, added to `s` is 0; the empty sum counts only if `b`. -/
def noTie : List Nat → Int → Bool → Bool
  | [], s, b => !(b && s == 0)
  | d :: l, s, b => noTie l s b && (noTie l (s + d) true && noTie l (s - d) true)

theorem noTie_ne {ι : Type} [DecidableEq ι] (w : ι → Nat) {S T : Finset ι} :
    ∀ (l : List ι) (s : Int) (b : Bool), noTie (l.map w) s b = true →
      (b = true ∨ ∃ i ∈ l, i ∈ S) →
      s + (l.map fun i => if i ∈ S then (w i : Int) else if i ∈ T then -(w i : Int) else 0).sum ≠ 0 := by
  intro l
  induction l with
  | nil =>
    rintro s b h (rfl | ⟨i, hi, _⟩)
    · simpa [noTie] using h
    · cases hi
  | cons x l ih =>
    intro s b h hb
    simp only [List.map_cons, noTie, Bool.and_eq_true] at h
    obtain ⟨h1, h2, h3⟩ := h
    rw [List.map_cons, List.sum_cons]
    by_cases hxS : x ∈ S
    · rw [if_pos hxS, ← add_assoc]
      exact ih _ _ h2 (.inl rfl)
    · rw [if_neg hxS]
      by_cases hxT : x ∈ T
      · rw [if_pos hxT, ← add_assoc, ← sub_eq_add_neg]
        exact ih _ _ h3 (.inl rfl)
      · rw [if_neg hxT, zero_add]
        refine ih _ _ h1 (hb.imp_right ?_)
        rintro ⟨i, hi, hiS⟩
        rcases List.mem_cons.1 hi with rfl | hi
        · exact absurd hiS hxS
        · exact ⟨i, hi, hiS⟩

/-- The tests of all areas together rule out ties. -/
theorem tieFree_of_noTie {n : Nat} {d : Fin n → Fin n → ℚ} {D : Nat → Nat → Nat} {c : ℚ} (hc : 0 < c)
    (hD : ∀ i j : Fin n, d i j = c * (D i.val j.val : ℚ))
    (h : (List.finRange n).all (fun a => noTie (((List.finRange n).filter fun i => decide (i ≠ a)).map
      fun i => D i.val a.val) 0 false) = true) : Props.TieFree d := by
  intro a S T hS haS haT hST heq
  have h1 := List.all_eq_true.1 h a (List.mem_finRange a)
  have h2 := noTie_ne (S := S) (T := T) (fun i : Fin n => D i.val a.val) _ 0 false h1 (.inr (by
    obtain ⟨i, hi⟩ := hS
    exact ⟨i, by
      simp only [List.mem_filter, List.mem_finRange, true_and, decide_eq_true_eq]
      rintro rfl; exact haS hi, hi⟩))
  apply h2
  have hset : ∀ S : Finset (Fin n), ∑ i ∈ S, d i a = c * ((∑ i ∈ S, (D i.val a.val : Int) : Int) : ℚ) := by
    intro S
    rw [Int.cast_sum, Finset.mul_sum]
    exact Finset.sum_congr rfl fun i _ => by rw [hD]; simp
  rw [hset, hset] at heq
  have heq' : (∑ i ∈ S, (D i.val a.val : Int)) = ∑ i ∈ T, (D i.val a.val : Int) := by
    have := mul_left_cancel₀ hc.ne' heq
    exact_mod_cast this
  rw [zero_add]
  have hnd : ((List.finRange n).filter fun i => decide (i ≠ a)).Nodup := (List.nodup_finRange n).filter _
  rw [← List.sum_toFinset _ hnd]
  have hfin : ((List.finRange n).filter fun i => decide (i ≠ a)).toFinset = Finset.univ.erase a := by
    ext i; simp
  rw [hfin]
  have hsplit : ∀ i ∈ Finset.univ.erase a,
      (if i ∈ S then (D i.val a.val : Int) else if i ∈ T then -(D i.val a.val : Int) else 0) =
      (if i ∈ S then (D i.val a.val : Int) else 0) - if i ∈ T then (D i.val a.val : Int) else 0 := by
    intro i _
    by_cases hiS : i ∈ S
    · have : i ∉ T := Finset.disjoint_left.1 hST hiS
      simp [hiS, this]
    · by_cases hiT : i ∈ T <;> simp [hiS, hiT]
  rw [Finset.sum_congr rfl hsplit, Finset.sum_sub_distrib, ← Finset.sum_filter, ← Finset.sum_filter]
  have hS' : (Finset.univ.erase a).filter (· ∈ S) = S := by
    ext i
    simp only [Finset.mem_filter, Finset.mem_erase, Finset.mem_univ, and_true]
    exact ⟨fun h => h.2, fun h => ⟨fun e => haS (e ▸ h), h⟩⟩
  have hT' : (Finset.univ.erase a).filter (· ∈ T) = T := by
    ext i
    simp only [Finset.mem_filter, Finset.mem_erase, Finset.mem_univ, and_true]
    exact ⟨fun h => h.2, fun h => ⟨fun e => haT (e ▸ h), h⟩⟩
  rw [hS', hT', heq', sub_self]

/-! ### The nine areas -/

/-- The neighbors of the areas as numbers. -/
def duqueNb : List Nat :=
  [0b1010, 0b10101, 0b100010, 0b1010001, 0b10101010, 0b100010100, 0b10001000, 0b101010000, 0b10100000]

/-- The differences of the attributes in tenths. -/
def duqueGap (i j : Nat) : Nat :=
  (duqueTenths.getD i 0 - duqueTenths.getD j 0) + (duqueTenths.getD j 0 - duqueTenths.getD i 0)

theorem duque_mask : MaskOf duqueAdj duqueNb := by unfold MaskOf; decide +kernel

theorem duque_symm : Spec.Symmetric duqueAdj := by unfold Spec.Symmetric; decide +kernel

theorem duque_settled :
    (List.range (2 ^ 9)).all (isSettled duqueNb duqueGap 9 0b111011000) = true := by decide +kernel

theorem duque_noTie : (List.finRange 9).all (fun a => noTie (((List.finRange 9).filter fun i =>
    decide (i ≠ a)).map fun i => duqueGap i.val a.val) 0 false) = true := by decide +kernel

theorem duque_gap (i j : Fin 9) : |duqueAttr i - duqueAttr j| = 1 / 10 * (duqueGap i.val j.val : ℚ) := by
  revert i j
  decide +kernel

theorem duque_labels (i j : Fin 9) : (0b111011000 : Nat).testBit i.val = (0b111011000 : Nat).testBit j.val ↔
    duqueLabels i = duqueLabels j := by
  revert i j
  decide +kernel

theorem duque_contiguous (m : Nat) (h : isWhole duqueNb 9 m = true) :
    Contiguous duqueAdj (maskSet 9 m) := isWhole_contiguous duque_mask h

theorem duque_connected : Connected duqueAdj := by
  have h := duque_contiguous 511 (by decide +kernel)
  refine ⟨⟨0⟩, fun a b => ?_⟩
  have hall : ∀ i : Fin 9, i ∈ maskSet 9 511 := by
    intro i
    change (511 : Nat).testBit i.val = true
    revert i
    decide +kernel
  have := h.2 a (hall a) b (hall b)
  clear h
  induction this with
  | refl => exact .refl
  | tail _ h ih => exact ih.tail h.2.2

/-- Feasibility of two regions given by a number. -/
theorem duque_feasible_of {L : Labels 9} {m : Nat} {x y : Int} (hn : numRegions L = 2)
    (hx : ∀ i, L i = x ↔ m.testBit i.val = true) (hy : ∀ i, L i = y ↔ m.testBit i.val = false)
    (h1 : isWhole duqueNb 9 m = true) (h2 : isWhole duqueNb 9 (511 ^^^ m) = true) :
    Feasible duqueAdj L 2 := by
  refine ⟨fun v => ?_, hn⟩
  have e1 : regionOf L x = maskSet 9 m := by
    ext i
    exact hx i
  have e2 : regionOf L y = maskSet 9 (511 ^^^ m) := by
    ext i
    change L i = y ↔ (511 ^^^ m).testBit i.val = true
    rw [hy, Nat.testBit_xor, show (511 : Nat).testBit i.val = true from by revert i; decide +kernel]
    simp
  cases hv : m.testBit v.val with
  | true => rw [(hx v).2 hv, e1]; exact duque_contiguous _ h1
  | false => rw [(hy v).2 hv, e2]; exact duque_contiguous _ h2

theorem duque_feasible : Feasible duqueAdj duqueLabels 2 := by
  refine ⟨fun v => ?_, by decide +kernel⟩
  have h1 : regionOf duqueLabels 0 = maskSet 9 0b000100111 := by
    ext i
    change duqueLabels i = 0 ↔ (0b000100111 : Nat).testBit i.val = true
    revert i
    decide +kernel
  have h2 : regionOf duqueLabels 1 = maskSet 9 0b111011000 := by
    ext i
    change duqueLabels i = 1 ↔ (0b111011000 : Nat).testBit i.val = true
    revert i
    decide +kernel
  have h3 : ∀ v, duqueLabels v = 0 ∨ duqueLabels v = 1 := by decide +kernel
  rcases h3 v with h | h
  · rw [h, h1]; exact duque_contiguous _ (by decide +kernel)
  · rw [h, h2]; exact duque_contiguous _ (by decide +kernel)

section
variable {d : Fin 9 → Fin 9 → ℚ} {c : ℚ}

/-- The dissimilarities are a multiple of the differences of the attributes. -/
def DuqueLike (d : Fin 9 → Fin 9 → ℚ) (c : ℚ) : Prop :=
  0 < c ∧ ∀ i j, d i j = c * |duqueAttr i - duqueAttr j|

theorem DuqueLike.gap (h : DuqueLike d c) (i j : Fin 9) :
    d i j = c / 10 * (duqueGap i.val j.val : ℚ) := by
  rw [h.2, duque_gap]; ring

theorem DuqueLike.symm (h : DuqueLike d c) (i j : Fin 9) : d i j = d j i := by
  rw [h.2, h.2, abs_sub_comm]

theorem DuqueLike.zero (h : DuqueLike d c) (i : Fin 9) : d i i = 0 := by
  rw [h.2]; simp

theorem DuqueLike.pos (h : DuqueLike d c) {i j : Fin 9} (hij : i ≠ j) : 0 < d i j := by
  rw [h.2]
  refine mul_pos h.1 (abs_pos.2 (sub_ne_zero.2 ?_))
  revert i j
  decide +kernel

theorem DuqueLike.tieFree (h : DuqueLike d c) : Props.TieFree d :=
  tieFree_of_noTie (div_pos h.1 (by norm_num)) h.gap duque_noTie

/-- A locally optimal clustering into two regions is the expected one. -/
theorem duque_unique (h : DuqueLike d c) {L : Labels 9} (hL : Feasible duqueAdj L 2)
    (hopt : ∀ a u, Admissible duqueAdj L a (L u) → withinPairs L d ≤ withinPairs (moved L a (L u)) d) :
    SamePartition L duqueLabels := fun i j =>
  (localOptimum_unique duque_symm duque_mask h.symm h.zero (div_pos h.1 (by norm_num : (0 : ℚ) < 10)) h.gap
    duque_settled hL hopt i j).trans (duque_labels i j)

theorem moved_feasible {n p : Nat} {adj : Adj n} {L : Labels n} {a : Fin n} {r : Int}
    (hL : Feasible adj L p) (hm : Admissible adj L a r) : Feasible adj (moved L a r) p := by
  refine ⟨moved_contiguous hL.1 hm, ?_⟩
  rw [← hL.2]
  unfold numRegions
  congr 1
  ext x
  have := moved_image hm x
  simpa using this

theorem duque_optimum (h : DuqueLike d c) {L : Labels 9} (hL : Props.Optimum duqueAdj d 2 L) :
    SamePartition L duqueLabels :=
  duque_unique h hL.1 fun _ _ hm => hL.2 _ (moved_feasible hL.1 hm)

/-- There is a best clustering. -/
theorem exists_optimum {n p : Nat} {adj : Adj n} (d : Fin n → Fin n → ℚ) {L₀ : Labels n}
    (h₀ : Feasible adj L₀ p) : ∃ L, Props.Optimum adj d p L := by
  classical
  have hnum : ∀ L : Labels n, Feasible adj L p → ∃ N : Fin n → Fin p,
      ∀ i j, ((N i).val : Int) = ((N j).val : Int) ↔ L i = L j := by
    intro L hL
    obtain ⟨N, hlt, -, hiff⟩ := exists_numbering L hL.2
    exact ⟨fun i => ⟨N i, hlt i⟩, fun i j => Int.natCast_inj.trans (hiff i j)⟩
  have hfeas : ∀ (L : Labels n) (N : Fin n → Fin p), Feasible adj L p →
      (∀ i j, ((N i).val : Int) = ((N j).val : Int) ↔ L i = L j) →
      Feasible adj (fun i => ((N i).val : Int)) p := fun L N hL hN =>
    ⟨allContiguous_congr hN hL.1, (numRegions_congr hN).trans hL.2⟩
  obtain ⟨N₀, hN₀⟩ := hnum L₀ h₀
  obtain ⟨N, hN, hmin⟩ := Finset.exists_min_image
    (Finset.univ.filter fun N : Fin n → Fin p => Feasible adj (fun i => ((N i).val : Int)) p)
    (fun N => withinPairs (fun i => ((N i).val : Int)) d) ⟨N₀, by simpa using hfeas _ _ h₀ hN₀⟩
  refine ⟨fun i => ((N i).val : Int), (Finset.mem_filter.1 hN).2, fun L' hL' => ?_⟩
  obtain ⟨N', hN'⟩ := hnum L' hL'
  rw [← withinPairs_congr hN' d]
  exact hmin N' (by simpa using hfeas _ _ hL' hN')

/-- The expected clustering is the best one. -/
theorem duque_best (h : DuqueLike d c) : Props.Optimum duqueAdj d 2 duqueLabels := by
  obtain ⟨L, hL⟩ := exists_optimum d duque_feasible
  refine ⟨duque_feasible, fun L' hL' => ?_⟩
  rw [← withinPairs_congr (duque_optimum h hL)]
  exact hL.2 L' hL'

end

end Region
